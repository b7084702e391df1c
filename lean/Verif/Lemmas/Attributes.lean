import Verif.Spec.Attributes
import Verif.Lemmas.ProfileHistory

/-!
# Lemmas on attributes of profiles
-/

noncomputable section

namespace PySLM2.Profile

/-- The variables and data of the object are those of the constructor call. -/
def Matches (h : Heap) : Prof → New → Prop
  | .const i b, .const c => match c with
    | .real r => b = false ∧ h.re i = r
    | .cplx z => b = true ∧ h.cx i = z
  | .hg i j k l n m, .hg x0 y0 a w n' m' => h.re i = x0 ∧ h.re j = y0 ∧ h.re k = a ∧ h.re l = w ∧ n = n' ∧ m = m'
  | .lg i j k l n m, .lg x0 y0 a w n' m' => h.re i = x0 ∧ h.re j = y0 ∧ h.re k = a ∧ h.re l = w ∧ n = n' ∧ m = m'
  | .sg i j k l q, .sg x0 y0 a w p => h.re i = x0 ∧ h.re j = y0 ∧ h.re k = a ∧ h.re l = w ∧ h.re q = p
  | .zernike i radius n m coef norm ex, .zernike a radius' n' m' nrm ex' =>
    h.re i = a ∧ radius = radius' ∧ n = n' ∧ m = m' ∧ ex = ex' ∧ zernikeData n m nrm = .ok (coef, norm)
  | .rect i j k l, .rect x0 y0 wx wy => h.re i = x0 ∧ h.re j = y0 ∧ h.re k = wx ∧ h.re l = wy
  | .circ i j k, .circ x0 y0 r => h.re i = x0 ∧ h.re j = y0 ∧ h.re k = r
  | _, _ => False

theorem matches_congr {h h' : Heap} {f : Prof} {n : New} (ha : Agree h h' (own f)) (hm : Matches h f n) : Matches h' f n := by
  cases f <;> cases n <;> try exact hm.elim
  case const.const i b c =>
    have := ha i (by simp [own])
    cases b <;> cases c <;> simp_all [Matches]
  case zernike.zernike =>
    obtain ⟨h1, h2⟩ := hm
    exact ⟨(ha _ (by simp [own])).1.symm.trans h1, h2⟩
  all_goals simp only [Matches] at hm ⊢
  all_goals simp only [own, Agree, List.mem_cons, List.not_mem_nil, or_false, forall_eq_or_imp, forall_eq] at ha
  all_goals simp_all

theorem matches_new {h h' : Heap} {f : Prof} {n : New} (hr : n.run h = .ok (h', f)) : Matches h' f n := by
  cases n with
  | const c => cases c <;> (injection hr with hr; cases hr; simp [Matches, allocRe, allocCx])
  | zernike a radius n m nrm ex =>
    simp only [New.run, newZernike] at hr
    cases hz : zernikeData n m nrm with
    | error e => rw [hz] at hr; cases hr
    | ok d => rw [hz] at hr; injection hr with hr; cases hr; simp [Matches, allocRe, hz]
  | hg | lg | sg | rect | circ =>
    injection hr with hr
    cases hr
    simp [Matches, allocRe, Function.update_apply, Nat.add_assoc]

theorem matches_run {h h0 : Heap} {f : Prof} {n : New} (hm : Matches h f n) :
    ∃ h1 g, n.run h0 = .ok (h1, g) := by
  cases n with
  | zernike a radius n m nrm ex =>
    cases f <;> try exact hm.elim
    obtain ⟨-, -, rfl, rfl, -, hz⟩ := hm
    exact ⟨_, _, by simp only [New.run, newZernike, hz]; rfl⟩
  | _ => exact ⟨_, _, rfl⟩

theorem matches_eval {h h' : Heap} {f g : Prof} {n : New} (hf : Matches h f n) (hg : Matches h' g n) (x y : ℝ) :
    eval h f x y = eval h' g x y := by
  cases n with
  | const c =>
    cases f <;> try exact hf.elim
    cases g <;> try exact hg.elim
    cases c <;> (simp only [Matches] at hf hg; simp [eval, hf, hg])
  | zernike a radius n m nrm ex =>
    cases f <;> try exact hf.elim
    cases g <;> try exact hg.elim
    obtain ⟨h1, rfl, rfl, rfl, rfl, h2⟩ := hf
    obtain ⟨h1', rfl, rfl, rfl, rfl, h2'⟩ := hg
    rw [h2] at h2'
    cases h2'
    simp only [eval, h1, h1']
  | hg | lg | sg | rect | circ =>
    cases f <;> try exact hf.elim
    cases g <;> try exact hg.elim
    simp only [Matches] at hf hg
    simp only [eval, hf, hg]

/-- An assignment that does not raise, on the object itself. -/
theorem matches_set {h h' : Heap} {f : Prof} {n : New} {d d' : Dict} {nm : Name} {v : PyNum} (hnd : (own f).Nodup)
    (hm : Matches h f n) (hs : setattr h f d nm v = .ok (h', d')) (hl : n.isLaguerre = false)
    (hfl : n.isZernike = true → nm.isFlag = false) : Matches h' f (n.withArg nm v) := by
  cases n with
  | lg => cases hl
  | const c =>
    cases f <;> try exact hm.elim
    rename_i i b
    cases c <;> obtain ⟨rfl, hm⟩ := hm
    all_goals
      cases nm <;> cases v <;>
        simp [setattr, descriptor, assign, assignRe, assignCx] at hs <;>
        obtain ⟨rfl, rfl⟩ := hs <;> simp_all [Matches, New.withArg, PyNum.val]
  | zernike a radius n m nrm ex =>
    cases f <;> try exact hm.elim
    obtain ⟨h1, rfl, rfl, rfl, rfl, h2⟩ := hm
    cases nm <;> first | cases hfl rfl | skip
    all_goals
      cases v <;>
        simp [setattr, descriptor, assign, assignRe, assignCx] at hs <;>
        obtain ⟨rfl, rfl⟩ := hs <;> simp [Matches, New.withArg, h1, h2]
  | hg | sg | rect | circ =>
    cases f <;> try exact hm.elim
    simp only [own, List.nodup_cons, List.mem_cons, List.not_mem_nil, or_false, not_or] at hnd
    cases nm
    all_goals
      cases v <;>
        simp [setattr, descriptor, assign, assignRe, assignCx] at hs <;>
        obtain ⟨rfl, rfl⟩ := hs <;> simp only [Matches, New.withArg, Function.update_apply] at hm ⊢ <;> grind

theorem new_keeps {h h' : Heap} {f : Prof} {n : New} (hr : n.run h = .ok (h', f)) {l : List ℕ} (hl : ∀ c ∈ l, c < h.next) :
    Agree h h' l := by
  intro c hc
  have hlt := hl c hc
  have e : ∀ k, c ≠ h.next + k := fun k => by omega
  have e0 : c ≠ h.next := e 0
  cases n with
  | const v => cases v <;> (injection hr with hr; cases hr; simp [allocRe, allocCx, e0])
  | zernike a radius n m nrm ex =>
    simp only [New.run, newZernike] at hr
    cases hz : zernikeData n m nrm with
    | error e => rw [hz] at hr; cases hr
    | ok d => rw [hz] at hr; injection hr with hr; cases hr; simp [allocRe, e0]
  | hg | lg | sg | rect | circ =>
    injection hr with hr
    cases hr
    simp [allocRe, Function.update_apply, Nat.add_assoc, e, e0]

/-- What a statement that makes a profile does. -/
theorem make_spec (w : World) (c : Cmd) (hc : (∃ n, c = .new n) ∨ (∃ op a b, c = .binary op a b) ∨ (∃ k, c = .neg k) ∨
      (∃ t k, c = .transform t k) ∨ ∃ k, c = .asComplex k) :
    w.exec c = w ∨ ∃ g, (w.exec c).objs = w.objs ++ [g] ∧
      ((∃ n, c = .new n ∧ n.run w.heap = .ok ((w.exec c).heap, g)) ∨ (∀ n, c ≠ .new n) ∧ (w.exec c).heap = w.heap) := by
  have hp : ∀ r : Except PyErr Prof, w.push r = w ∨ ∃ g, (w.push r).objs = w.objs ++ [g] ∧ (w.push r).heap = w.heap := by
    intro r
    cases r with
    | ok f => exact .inr ⟨f, rfl, rfl⟩
    | error e => exact .inl rfl
  rcases hc with ⟨n, rfl⟩ | ⟨op, a, b, rfl⟩ | ⟨k, rfl⟩ | ⟨t, k, rfl⟩ | ⟨k, rfl⟩
  · cases hr : n.run w.heap with
    | error e => exact .inl (by simp only [World.exec, hr])
    | ok r => exact .inr ⟨r.2, by simp only [World.exec, hr], .inl ⟨n, rfl, by simp only [World.exec, hr]⟩⟩
  · cases ha : w.operand a with
    | none => exact .inl (by simp only [World.exec, ha])
    | some a' =>
      cases hb : w.operand b with
      | none => exact .inl (by simp only [World.exec, ha, hb])
      | some b' =>
        simp only [World.exec, ha, hb]
        rcases hp (pyBinary op a' b') with h | ⟨g, h1, h2⟩
        · exact .inl h
        · exact .inr ⟨g, h1, .inr ⟨fun n => by simp, h2⟩⟩
  all_goals
    cases ho : w.objs[k]? with
    | none => exact .inl (by simp only [World.exec, ho])
    | some f =>
      simp only [World.exec, ho]
      rcases hp _ with h | ⟨g, h1, h2⟩
      · exact .inl h
      · exact .inr ⟨g, h1, .inr ⟨fun n => by simp, h2⟩⟩

/-- The invariant of programs with attributes; `F` says that no flags are assigned. -/
structure AInv (F : Prop) (w : AWorld) (asIf made : List (Option New)) : Prop where
  inv : ∃ d, Inv (⟨w.heap, w.objs, []⟩, d)
  lenA : asIf.length = w.objs.length
  lenM : made.length = w.objs.length
  relA : ∀ {k : ℕ} {n : New}, asIf[k]? = some (some n) → (n.isLaguerre = false ∧ (n.isZernike = true → F)) →
    ∃ f, w.objs[k]? = some f ∧ Matches w.heap f n
  relM : ∀ {k : ℕ} {n : New}, made[k]? = some (some n) → n.isLaguerre = true → ∃ f, w.objs[k]? = some f ∧ Matches w.heap f n

theorem ainv_start (F : Prop) (h : Heap) : AInv F (.start h) [] [] :=
  ⟨⟨[], inv_init h⟩, rfl, rfl, by simp, by simp⟩

/-- The constructor call of a statement. -/
def Act.ctor : Act → Option New
  | .new n => some n
  | _ => none

theorem ainv_make {F : Prop} {w : AWorld} {asIf made : List (Option New)} (hi : AInv F w asIf made) (c : Cmd) (o : Option New)
    (hc : (∃ n, c = .new n ∧ o = some n) ∨ ((∃ op a b, c = .binary op a b) ∨ (∃ k, c = .neg k) ∨
      (∃ t k, c = .transform t k) ∨ ∃ k, c = .asComplex k) ∧ o = none) :
    AInv F (w.make c) (if (w.make c).objs.length = w.objs.length then asIf else asIf ++ [o])
      (if (w.make c).objs.length = w.objs.length then made else made ++ [o]) := by
  obtain ⟨⟨d, hd⟩, hA, hM, rA, rM⟩ := hi
  have hc' : (∃ n, c = .new n) ∨ (∃ op a b, c = .binary op a b) ∨ (∃ k, c = .neg k) ∨
      (∃ t k, c = .transform t k) ∨ ∃ k, c = .asComplex k := by
    rcases hc with ⟨n, h, -⟩ | ⟨h, -⟩
    · exact .inl ⟨n, h⟩
    · exact .inr h
  have hsamp : (World.exec ⟨w.heap, w.objs, []⟩ c).samples = [] := by
    have hp : ∀ (v : World) r, (v.push r).samples = v.samples := by intro v r; cases r <;> rfl
    rcases hc' with ⟨n, rfl⟩ | ⟨op, a, b, rfl⟩ | ⟨k, rfl⟩ | ⟨t, k, rfl⟩ | ⟨k, rfl⟩ <;>
      simp only [World.exec] <;> split <;> simp [hp]
  have hstep := inv_step hd c
  have hinv : ∃ d', Inv (⟨(w.make c).heap, (w.make c).objs, []⟩, d') := by
    refine ⟨(World.depsStep (⟨w.heap, w.objs, []⟩, d) c).2, ?_⟩
    have e : (World.depsStep (⟨w.heap, w.objs, []⟩, d) c).1 = ⟨(w.make c).heap, (w.make c).objs, []⟩ := by
      show World.exec ⟨w.heap, w.objs, []⟩ c = ⟨(World.exec ⟨w.heap, w.objs, []⟩ c).heap, (World.exec ⟨w.heap, w.objs, []⟩ c).objs, []⟩
      generalize World.exec ⟨w.heap, w.objs, []⟩ c = w' at hsamp
      cases w'
      cases hsamp
      rfl
    rw [← e]
    exact hstep
  rcases make_spec ⟨w.heap, w.objs, []⟩ c hc' with h | ⟨g, h1, h2⟩
  · have e : w.make c = w := by unfold AWorld.make; rw [h]
    rw [e, if_pos rfl, if_pos rfl]
    exact ⟨⟨d, hd⟩, hA, hM, rA, rM⟩
  · have ho : (w.make c).objs = w.objs ++ [g] := h1
    have hne : (w.make c).objs.length ≠ w.objs.length := by rw [ho]; simp
    rw [if_neg hne, if_neg hne]
    have hag : ∀ {k : ℕ} {f : Prof}, w.objs[k]? = some f → Agree w.heap (w.make c).heap (own f) := by
      intro k f hf
      rcases h2 with ⟨n, -, hr⟩ | ⟨-, hr⟩
      · exact new_keeps hr fun c' hc' => (hd.fresh hf c' (own_sub f c' hc')).1
      · have : (w.make c).heap = w.heap := hr
        rw [this]
        exact fun _ _ => ⟨rfl, rfl⟩
    have key : ∀ {l : List (Option New)} {b : New → Prop}, l.length = w.objs.length →
        (∀ {k : ℕ} {n : New}, l[k]? = some (some n) → b n → ∃ f, w.objs[k]? = some f ∧ Matches w.heap f n) →
        ∀ {k : ℕ} {n : New}, (l ++ [o])[k]? = some (some n) → b n →
          ∃ f, (w.make c).objs[k]? = some f ∧ Matches (w.make c).heap f n := by
      intro l b hl hr k n hk hb
      rw [ho]
      by_cases hlt : k < l.length
      · rw [List.getElem?_append_left hlt] at hk
        obtain ⟨f, hf, hm⟩ := hr hk hb
        exact ⟨f, by rw [List.getElem?_append_left (hl ▸ hlt), hf], matches_congr (hag hf) hm⟩
      · rw [List.getElem?_append_right (by omega)] at hk
        obtain hz : k - l.length = 0 := by
          by_contra hz
          rw [List.getElem?_eq_none (by simp; omega)] at hk
          cases hk
        rw [hz] at hk
        simp only [List.getElem?_cons_zero, Option.some.injEq] at hk
        have hkl : k = w.objs.length := by omega
        refine ⟨g, by rw [hkl]; simp, ?_⟩
        rcases hc with ⟨n', rfl, rfl⟩ | ⟨-, rfl⟩
        · cases hk
          rcases h2 with ⟨n'', he, hr⟩ | ⟨hno, -⟩
          · cases he
            exact matches_new hr
          · exact absurd rfl (hno n)
        · cases hk
    exact ⟨hinv, by rw [ho]; simp [hA], by rw [ho]; simp [hM], key hA rA, key (b := fun n => n.isLaguerre = true) hM rM⟩

theorem withArg_laguerre (n : New) (nm : Name) (v : PyNum) : (n.withArg nm v).isLaguerre = n.isLaguerre := by
  unfold New.withArg
  split <;> rfl

theorem withArg_zernike (n : New) (nm : Name) (v : PyNum) : (n.withArg nm v).isZernike = n.isZernike := by
  unfold New.withArg
  split <;> rfl

theorem descriptor_own {f : Prof} {nm : Name} {p : ℕ × Kind} (h : descriptor f nm = some (.cell p)) : p.1 ∈ own f := by
  cases f <;> cases nm <;> simp [descriptor] at h <;> subst h <;> simp [own]

theorem descriptor_laguerre {h : Heap} {f : Prof} {n : New} (hm : Matches h f n) (hl : n.isLaguerre = true) (nm : Name) :
    descriptor f nm = none := by
  cases n <;> try cases hl
  cases f <;> try exact hm.elim
  cases nm <;> rfl

theorem ainv_set {F : Prop} {w w' : AWorld} {asIf made : List (Option New)} (hi : AInv F w asIf made) {k : ℕ} {nm : Name} {v : PyNum}
    (hs : w.set k nm v = some w') (hfl : F → nm.isFlag = false) :
    AInv F w' (asIf.modify k (Option.map fun n => n.withArg nm v)) made := by
  obtain ⟨⟨d, hd⟩, hA, hM, rA, rM⟩ := hi
  unfold AWorld.set at hs
  cases hf : w.objs[k]? with
  | none => rw [hf] at hs; cases hs
  | some f =>
    rw [hf] at hs
    dsimp only at hs
    cases hset : setattr w.heap f (w.dict k) nm v with
    | error e => rw [hset] at hs; cases hs
    | ok r =>
      rw [hset] at hs
      obtain ⟨h', d'⟩ := r
      injection hs with hs
      subst hs
      have hcase : h' = w.heap ∨ ∃ p, descriptor f nm = some (.cell p) ∧ assign w.heap p v = .ok h' := by
        unfold setattr at hset
        cases hdsc : descriptor f nm with
        | none => rw [hdsc] at hset; injection hset with hset; exact .inl (Prod.ext_iff.mp hset).1.symm
        | some ds =>
          rw [hdsc] at hset
          cases ds with
          | readOnly => cases hset
          | broken => cases hset
          | cell p =>
            dsimp only at hset
            cases ha : assign w.heap p v with
            | error e => rw [ha] at hset; cases hset
            | ok h'' => rw [ha] at hset; injection hset with hset; cases hset; exact .inr ⟨p, rfl, ha⟩
      have hnext : h'.next = w.heap.next := by
        rcases hcase with rfl | ⟨p, -, ha⟩
        · rfl
        · exact assign_next ha
      have hother : ∀ {j : ℕ} {g : Prof}, w.objs[j]? = some g → j ≠ k → Agree w.heap h' (own g) := by
        intro j g hg hjk
        rcases hcase with rfl | ⟨p, hdsc, ha⟩
        · exact fun _ _ => ⟨rfl, rfl⟩
        · exact assign_agree ha fun hmem => hjk (hd.uniq hg hf hmem (descriptor_own hdsc))
      refine ⟨⟨d, hd.len, fun hr c hc => ?_, hd.uniq, hd.nodup⟩, by simp [hA], hM, ?_, ?_⟩
      · have := hd.fresh hr c hc
        exact ⟨by show c < h'.next; rw [hnext]; exact this.1, this.2⟩
      · intro j n hj hl
        rw [List.getElem?_modify] at hj
        by_cases hjk : k = j
        · subst hjk
          cases ho : asIf[k]? with
          | none => rw [ho] at hj; simp at hj
          | some o =>
            rw [ho] at hj
            cases o with
            | none => simp at hj
            | some n0 =>
              simp only [if_true, Option.map_eq_map, Option.map_some, Option.some.injEq] at hj
              subst hj
              rw [withArg_laguerre, withArg_zernike] at hl
              obtain ⟨f', hf', hm⟩ := rA ho hl
              cases hf.symm.trans hf'
              exact ⟨f, hf, matches_set (hd.nodup hf) hm hset hl.1 fun hz => hfl (hl.2 hz)⟩
        · simp only [hjk, if_false, id_eq, Option.map_eq_map, Option.map_id'] at hj
          obtain ⟨g, hg, hm⟩ := rA (by simpa using hj) hl
          exact ⟨g, hg, matches_congr (hother hg (Ne.symm hjk)) hm⟩
      · intro j n hj hl
        obtain ⟨g, hg, hm⟩ := rM hj hl
        refine ⟨g, hg, ?_⟩
        by_cases hjk : j = k
        · subst hjk
          cases hf.symm.trans hg
          rcases hcase with rfl | ⟨p, hdsc, -⟩
          · exact hm
          · rw [descriptor_laguerre hm hl] at hdsc
            cases hdsc
        · exact matches_congr (hother hg hjk) hm

theorem set_length {w w' : AWorld} {k : ℕ} {nm : Name} {v : PyNum} (hs : w.set k nm v = some w') : w'.objs = w.objs := by
  unfold AWorld.set at hs
  cases hf : w.objs[k]? with
  | none => rw [hf] at hs; cases hs
  | some f =>
    rw [hf] at hs
    dsimp only at hs
    cases hset : setattr w.heap f (w.dict k) nm v with
    | error e => rw [hset] at hs; cases hs
    | ok r => rw [hset] at hs; injection hs with hs; subst hs; rfl

theorem ainv_step {F : Prop} {w : AWorld} {asIf made : List (Option New)} (hi : AInv F w asIf made) (a : Act)
    (ha : ∀ k nm v, a = .setattr k nm v → F → nm.isFlag = false) :
    AInv F (w.step a) (AWorld.asIfStep (w, asIf) a).2 (AWorld.madeStep (w, made) a).2 := by
  cases a with
  | new n => exact ainv_make hi (.new n) (some n) (.inl ⟨n, rfl, rfl⟩)
  | binary op a b => exact ainv_make hi (.binary op a b) none (.inr ⟨.inl ⟨_, _, _, rfl⟩, rfl⟩)
  | neg k => exact ainv_make hi (.neg k) none (.inr ⟨.inr (.inl ⟨_, rfl⟩), rfl⟩)
  | transform t k => exact ainv_make hi (.transform t k) none (.inr ⟨.inr (.inr (.inl ⟨_, _, rfl⟩)), rfl⟩)
  | asComplex k => exact ainv_make hi (.asComplex k) none (.inr ⟨.inr (.inr (.inr ⟨_, rfl⟩)), rfl⟩)
  | setattr k nm v =>
    simp only [AWorld.asIfStep, AWorld.madeStep, AWorld.step]
    obtain hs | ⟨w', hs⟩ : w.set k nm v = none ∨ ∃ w', w.set k nm v = some w' := by
      cases w.set k nm v with
      | none => exact .inl rfl
      | some w' => exact .inr ⟨w', rfl⟩
    · simpa [hs] using hi
    · have := ainv_set hi hs (ha k nm v rfl)
      have hl : w'.objs.length = w.objs.length := by rw [set_length hs]
      simpa [hs, hl] using this

theorem ainv_run (h : Heap) (as : List Act) :
    AInv (NoFlags as) (AWorld.run (.start h) as) (AWorld.asIf h as).2 (AWorld.made h as).2 := by
  have key : ∀ (F : Prop) (as : List Act) (w : AWorld) (A M : List (Option New)), (F → NoFlags as) → AInv F w A M →
      AInv F (as.foldl AWorld.step w) (as.foldl AWorld.asIfStep (w, A)).2 (as.foldl AWorld.madeStep (w, M)).2 := by
    intro F as
    induction as with
    | nil => intro w A M _ hi; exact hi
    | cons a as ih =>
      intro w A M ha hi
      exact ih _ _ _ (fun hF k nm v hm => ha hF k nm v (List.mem_cons_of_mem _ hm))
        (ainv_step hi a fun k nm v he hF => ha hF k nm v (he ▸ List.mem_cons_self))
  exact key _ as _ _ _ id (ainv_start _ h)

end PySLM2.Profile
