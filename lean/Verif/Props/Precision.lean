import Verif.Spec.Precision

/-!
# C143: precisions never mix
-/

namespace PySLM2.Precision

open Backend

/-- All variables and constants of the profile have the dtype of the backend. -/
def Typed (b : State) : TProf → Prop
  | .base => True
  | .gauss v | .laguerre v | .zernike v _ | .window v => v = realTy b
  | .const v => v = realTy b ∨ v = cplxTy b
  | .bin f g => Typed b f ∧ Typed b g
  | .powNum f _ | .asComplex f => Typed b f
  | .move v f | .rescaleX v f | .rescaleY v f => v = realTy b ∧ Typed b f

theorem tys (b : State) : (realTy b = .f32 ∧ cplxTy b = .c64) ∨ (realTy b = .f64 ∧ cplxTy b = .c128) := by
  unfold realTy cplxTy getDtypeComplex
  cases b.dtype.eq32 <;> simp

theorem isDtype_real {b : State} (hb : Proper b) : isDtype b (realTy b) = true := by
  unfold isDtype realTy
  rcases hb with h | h <;> rw [h] <;> rfl

theorem isDtype_cplx (b : State) : isDtype b (cplxTy b) = false := by
  unfold isDtype cplxTy getDtypeComplex
  rcases h : b.dtype with _ | _ | _ | _ | _ <;> simp [DType.eq32]

theorem isDtype_improper {b : State} (hb : ¬ Proper b) (t : Ty) : isDtype b t = false := by
  unfold isDtype
  unfold Proper at hb
  rcases h : b.dtype with _ | _ | _ | _ | _ <;> simp_all

theorem isDtypeComplex_real (b : State) : isDtypeComplex b (realTy b) = false := by
  unfold isDtypeComplex
  rcases tys b with ⟨h1, h2⟩ | ⟨h1, h2⟩ <;> rw [h1, h2] <;> rfl

theorem isDtypeComplex_cplx (b : State) : isDtypeComplex b (cplxTy b) = true := by
  unfold isDtypeComplex
  simp

theorem real_ne_cplx (b : State) : realTy b ≠ cplxTy b := by
  rcases tys b with ⟨h1, h2⟩ | ⟨h1, h2⟩ <;> rw [h1, h2] <;> decide

theorem same_self (t : Ty) : same t t = .ok t := if_pos rfl

/-- The dtype a profile should have. -/
def expected (b : State) (p : TProf) : Ty := if p.complexValued then cplxTy b else realTy b

theorem const_expected {b : State} {v : Ty} (h : v = realTy b ∨ v = cplxTy b) : v = expected b (.const v) := by
  unfold expected TProf.complexValued
  rcases tys b with ⟨h1, h2⟩ | ⟨h1, h2⟩ <;> rw [h1, h2] at h ⊢ <;> rcases h with rfl | rfl <;> rfl

theorem cast_same (b : State) (c d : Bool) (h : Proper b ∨ c = d) :
    same (castOperands b (if c then cplxTy b else realTy b) (if d then cplxTy b else realTy b)).1
      (castOperands b (if c then cplxTy b else realTy b) (if d then cplxTy b else realTy b)).2 =
      .ok (if c || d then cplxTy b else realTy b) := by
  unfold castOperands
  rcases h with h | rfl
  · cases c <;> cases d <;> simp [isDtype_real h, isDtype_cplx, isDtypeComplex_real, isDtypeComplex_cplx, same_self]
  · cases c <;> simp [isDtype_cplx, isDtypeComplex_real, isDtypeComplex_cplx, same_self]

theorem eval_ok {b : State} {p : TProf} (ht : Typed b p) (hbase : p.hasBase = false) (hm : Proper b ∨ p.unmixed = true) :
    eval b (realTy b) (realTy b) p = .ok (expected b p) := by
  induction p with
  | base => simp [TProf.hasBase] at hbase
  | gauss v => cases ht; simp [eval, same_self, expected, TProf.complexValued, bind, Except.bind]
  | laguerre v => cases ht; simp [eval, same_self, expected, TProf.complexValued, bind, Except.bind]
  | zernike v e => cases ht; cases e <;> simp [eval, same_self, expected, TProf.complexValued, bind, Except.bind]
  | window v => cases ht; simp [eval, same_self, expected, TProf.complexValued, bind, Except.bind]
  | const v => exact congrArg Except.ok (const_expected ht)
  | bin f g ihf ihg =>
    simp only [TProf.hasBase, Bool.or_eq_false_iff] at hbase
    have hm' : (Proper b ∨ f.unmixed = true) ∧ (Proper b ∨ g.unmixed = true) ∧
        (Proper b ∨ f.complexValued = g.complexValued) := by
      rcases hm with h | h
      · exact ⟨.inl h, .inl h, .inl h⟩
      · simp only [TProf.unmixed, Bool.and_eq_true, beq_iff_eq] at h
        exact ⟨.inr h.1.1, .inr h.1.2, .inr h.2⟩
    simp only [eval, ihf ht.1 hbase.1 hm'.1, ihg ht.2 hbase.2 hm'.2.1, bind, Except.bind]
    exact cast_same b _ _ hm'.2.2
  | powNum f c ih =>
    simp only [eval, ih ht hbase hm, bind, Except.bind]
    unfold expected
    simp only [TProf.complexValued]
    cases c <;> simp
  | move v f ih =>
    obtain ⟨rfl, h⟩ := ht
    simp only [eval, same_self, bind, Except.bind]
    exact ih h hbase hm
  | rescaleX v f ih =>
    obtain ⟨rfl, h⟩ := ht
    simp only [eval, same_self, bind, Except.bind]
    exact ih h hbase hm
  | rescaleY v f ih =>
    obtain ⟨rfl, h⟩ := ht
    simp only [eval, same_self, bind, Except.bind]
    exact ih h hbase hm
  | asComplex f ih =>
    simp only [eval, ih ht hbase hm, bind, Except.bind]
    rfl

theorem eval_fails {b : State} {p : TProf} (ht : Typed b p) (h : p.hasBase = true ∨ (¬ Proper b ∧ p.unmixed = false)) :
    ∃ e, eval b (realTy b) (realTy b) p = .error e := by
  induction p with
  | base => exact ⟨_, rfl⟩
  | gauss v => simp [TProf.hasBase, TProf.unmixed] at h
  | laguerre v => simp [TProf.hasBase, TProf.unmixed] at h
  | zernike v e => simp [TProf.hasBase, TProf.unmixed] at h
  | window v => simp [TProf.hasBase, TProf.unmixed] at h
  | const v => simp [TProf.hasBase, TProf.unmixed] at h
  | bin f g ihf ihg =>
    by_cases h1 : f.hasBase = true ∨ (¬ Proper b ∧ f.unmixed = false)
    · obtain ⟨e, he⟩ := ihf ht.1 h1
      exact ⟨e, by simp only [eval, he, bind, Except.bind]⟩
    by_cases h2 : g.hasBase = true ∨ (¬ Proper b ∧ g.unmixed = false)
    · obtain ⟨e, he⟩ := ihg ht.2 h2
      cases hf : eval b (realTy b) (realTy b) f with
      | error e' => exact ⟨e', by simp only [eval, hf, bind, Except.bind]⟩
      | ok t => exact ⟨e, by simp only [eval, hf, he, bind, Except.bind]⟩
    push Not at h1 h2
    simp only [ne_eq, Bool.not_eq_true, Bool.not_eq_false] at h1 h2
    rcases h with h | ⟨hb, h⟩
    · simp [TProf.hasBase, h1.1, h2.1] at h
    · simp only [TProf.unmixed, h1.2 hb, h2.2 hb, Bool.and_self, Bool.true_and, beq_eq_false_iff_ne] at h
      refine ⟨.tensorflow, ?_⟩
      simp only [eval, eval_ok ht.1 h1.1 (.inr (h1.2 hb)), eval_ok ht.2 h2.1 (.inr (h2.2 hb)), bind, Except.bind]
      unfold castOperands
      simp only [isDtype_improper hb, Bool.and_false, Bool.false_and, Bool.false_eq_true, if_false]
      unfold same
      refine if_neg fun hc => h ?_
      unfold expected at hc
      have := real_ne_cplx b
      cases hf : f.complexValued <;> cases hg : g.complexValued <;> rw [hf, hg] at hc <;> simp_all
  | powNum f c ih =>
    obtain ⟨e, he⟩ := ih ht h
    exact ⟨e, by simp only [eval, he, bind, Except.bind]⟩
  | move v f ih =>
    obtain ⟨rfl, ht⟩ := ht
    simp only [eval, same_self, bind, Except.bind]
    exact ih ht h
  | rescaleX v f ih =>
    obtain ⟨rfl, ht⟩ := ht
    simp only [eval, same_self, bind, Except.bind]
    exact ih ht h
  | rescaleY v f ih =>
    obtain ⟨rfl, ht⟩ := ht
    simp only [eval, same_self, bind, Except.bind]
    exact ih ht h
  | asComplex f ih =>
    obtain ⟨e, he⟩ := ih ht h
    exact ⟨e, by simp only [eval, he, bind, Except.bind]⟩

/-- A profile without variables and constants is typed under any backend; any other one requires that the precision is fixed. -/
def bare : TProf → Bool
  | .base => true
  | .bin f g => bare f && bare g
  | .powNum f _ | .asComplex f => bare f
  | _ => false

theorem typed_of_bare (b : State) {p : TProf} (h : bare p = true) : Typed b p := by
  induction p with
  | bin f g ihf ihg =>
    simp only [bare, Bool.and_eq_true] at h
    exact ⟨ihf h.1, ihg h.2⟩
  | powNum f c ih => exact ih h
  | asComplex f ih => exact ih h
  | base => trivial
  | _ => simp [bare] at h

theorem Typed.congr {b b' : State} (h : b'.dtype = b.dtype) {p : TProf} (ht : Typed b p) : Typed b' p := by
  have h1 : realTy b' = realTy b := by unfold realTy; rw [h]
  have h2 : cplxTy b' = cplxTy b := by unfold cplxTy getDtypeComplex; rw [h]
  induction p <;> simp_all [Typed]

/-- The invariant of a program: all profiles have the precision of the backend, and it is fixed as soon as that matters. -/
structure Inv (w : World) : Prop where
  typed : ∀ p ∈ w.profiles, Typed w.backend p
  fixed : w.backend.initialized = true ∨ ∀ p ∈ w.profiles, bare p = true

theorem Inv.read {w : World} (i : Inv w) : Inv w.read :=
  ⟨fun p hp => Typed.congr (b := w.backend) (b' := w.read.backend) rfl (i.typed p hp), .inl rfl⟩

theorem Inv.push {w : World} (i : Inv w) {p : TProf} (ht : Typed w.backend p) (hf : w.backend.initialized = true ∨ bare p = true) :
    Inv (w.push p) := by
  refine ⟨fun q hq => ?_, ?_⟩
  · rcases List.mem_append.1 hq with h | h
    · exact i.typed q h
    · rw [List.mem_singleton.1 h]; exact ht
  · rcases hf with h | h
    · exact .inl h
    · rcases i.fixed with h' | h'
      · exact .inl h'
      · refine .inr fun q hq => ?_
        rcases List.mem_append.1 hq with h'' | h''
        · exact h' q h''
        · rw [List.mem_singleton.1 h'']; exact h

theorem Inv.pushRead {w : World} (i : Inv w) {p : TProf} (ht : Typed w.backend p) : Inv (w.read.push p) :=
  i.read.push (Typed.congr (b := w.backend) (b' := w.read.backend) rfl ht) (.inl rfl)

theorem numTy_typed (b : State) (c : Num) : Typed b (.const (numTy b c)) := by
  cases c
  · exact .inl rfl
  · exact .inr rfl

theorem Inv.step {w : World} (i : Inv w) (a : Act) : Inv (step w a) := by
  have get : ∀ {n : ℕ} {f : TProf}, w.profiles[n]? = some f → Typed w.backend f ∧
      (w.backend.initialized = true ∨ bare f = true) := fun h =>
    ⟨i.typed _ (List.mem_of_getElem? h), i.fixed.imp id fun h' => h' _ (List.mem_of_getElem? h)⟩
  cases a with
  | backend o =>
    have hd : (Backend.step w.backend o).1.initialized = true ∨ (Backend.step w.backend o).1.initialized = w.backend.initialized := by
      cases o <;> simp [Backend.step, getDtype, getDtypeComplex, getDtypeInt, setFftBackend]
      · simp only [setDtype]
        split_ifs <;> simp
    have hk : w.backend.initialized = true → (Backend.step w.backend o).1.dtype = w.backend.dtype := by
      intro h
      cases o <;> simp [Backend.step, getDtype, getDtypeComplex, getDtypeInt, setFftBackend, setDtype, h]
    refine ⟨fun p hp => ?_, ?_⟩
    · rcases i.fixed with h | h
      · exact (i.typed p hp).congr (hk h)
      · exact typed_of_bare _ (h p hp)
    · rcases i.fixed with h | h
      · exact .inl (by rcases hd with h' | h'; exacts [h', h'.trans h])
      · exact .inr h
  | newBase => exact i.push trivial (.inr rfl)
  | newGauss => exact i.pushRead rfl
  | newLaguerre => exact i.pushRead rfl
  | newZernike e => exact i.pushRead rfl
  | newWindow => exact i.pushRead rfl
  | newConstant c => exact i.pushRead (numTy_typed _ c)
  | op n m =>
    simp only [Precision.step]
    cases hf : w.profiles[n]? with
    | none => exact i
    | some f =>
      cases hg : w.profiles[m]? with
      | none => exact i
      | some g =>
        refine i.push ⟨(get hf).1, (get hg).1⟩ ?_
        rcases (get hf).2 with h | h
        · exact .inl h
        · rcases (get hg).2 with h' | h'
          · exact .inl h'
          · exact .inr (by simp [bare, h, h'])
  | opNum n c =>
    simp only [Precision.step]
    cases hf : w.profiles[n]? with
    | none => exact i
    | some f => exact i.pushRead ⟨(get hf).1, numTy_typed _ c⟩
  | powNum n c =>
    simp only [Precision.step]
    cases hf : w.profiles[n]? with
    | none => exact i
    | some f => exact i.push (get hf).1 (get hf).2
  | move n =>
    simp only [Precision.step]
    cases hf : w.profiles[n]? with
    | none => exact i
    | some f => exact i.pushRead ⟨rfl, (get hf).1⟩
  | rescaleX n =>
    simp only [Precision.step]
    cases hf : w.profiles[n]? with
    | none => exact i
    | some f => exact i.pushRead ⟨rfl, (get hf).1⟩
  | rescaleY n =>
    simp only [Precision.step]
    cases hf : w.profiles[n]? with
    | none => exact i
    | some f => exact i.pushRead ⟨rfl, (get hf).1⟩
  | asComplex n =>
    simp only [Precision.step]
    cases hf : w.profiles[n]? with
    | none => exact i
    | some f => exact i.push (get hf).1 (get hf).2
  | call n =>
    simp only [Precision.step]
    cases hf : w.profiles[n]? with
    | none => exact i
    | some f => exact i.read

theorem Inv.run {w : World} (i : Inv w) (acts : List Act) : Inv (run w acts) := by
  induction acts generalizing w with
  | nil => exact i
  | cons a acts ih => exact ih (i.step a)

theorem proper_step {w : World} {a : Act} (hb : Proper w.backend)
    (ha : ∀ v, a = .backend (.setDtype v) → ∀ name, v ≠ .alias32 name ∧ v ≠ .alias64 name) : Proper (step w a).backend := by
  cases a with
  | backend o =>
    cases o with
    | setDtype v =>
      simp only [step, Backend.step, setDtype]
      split_ifs with h1 h2
      · exact hb
      · cases v with
        | float32 => exact .inl rfl
        | float64 => exact .inr rfl
        | alias32 n => exact absurd rfl (ha _ rfl n).1
        | alias64 n => exact absurd rfl (ha _ rfl n).2
        | other n => simp [DType.eq32, DType.eq64] at h2
      · exact hb
    | _ => exact hb
  | op n m => simp only [step]; split <;> exact hb
  | newBase => exact hb
  | newGauss => exact hb
  | newLaguerre => exact hb
  | newZernike e => exact hb
  | newWindow => exact hb
  | newConstant c => exact hb
  | _ => simp only [step]; split <;> exact hb

theorem proper_run {acts : List Act} {w : World} (hb : Proper w.backend) (ha : ProperActs acts) : Proper (run w acts).backend := by
  induction acts generalizing w with
  | nil => exact hb
  | cons a acts ih =>
    refine ih (proper_step hb fun v hv => ha v (by simp [hv])) fun v hv => ha v (by simp [hv])

/-- **C143, what holds** (missing: precisions assigned by another spelling, see `C143_refuted`). In any program that assigns the
precision as `tf.float32` or `tf.float64`, calling any profile made so far gives values of the precision in force, complex
exactly if a complex constituent occurs in it; only the plain `FunctionProfile` fails. -/
theorem C143_partial (gpu : Bool) (acts : List Act) (ha : ProperActs acts) :
    let w := run (start gpu) acts
    ∀ p ∈ w.profiles,
      (p.hasBase = false →
        (w.backend.dtype = .float32 ∧ call w.backend p = .ok (if p.complexValued then .c64 else .f32)) ∨
        (w.backend.dtype = .float64 ∧ call w.backend p = .ok (if p.complexValued then .c128 else .f64))) ∧
      (p.hasBase = true → ∃ e, call w.backend p = .error e) := by
  intro w p hp
  have i : Inv w := Inv.run ⟨by simp [start], .inr (by simp [start])⟩ acts
  have hb : Proper w.backend := proper_run (.inl rfl) ha
  refine ⟨fun h => ?_, fun h => eval_fails (i.typed p hp) (.inl h)⟩
  have he := eval_ok (i.typed p hp) h (.inl hb)
  unfold expected realTy cplxTy getDtypeComplex at he
  unfold call realTy
  rcases hb with hb | hb
  · refine .inl ⟨hb, ?_⟩
    simpa [hb, DType.eq32] using he
  · refine .inr ⟨hb, ?_⟩
    simpa [hb, DType.eq32] using he

/-- **C143, for every spelling.** In any program, a call succeeds exactly if no plain `FunctionProfile` occurs in the profile and, where
the precision was assigned by another spelling (`"float64"`, `np.float32`, ...), no operator in it has one real and one
complex operand; the dtype is then as above. -/
theorem C143_exact (gpu : Bool) (acts : List Act) :
    let w := run (start gpu) acts
    ∀ p ∈ w.profiles,
      ((∃ t, call w.backend p = .ok t) ↔ p.hasBase = false ∧ (Proper w.backend ∨ p.unmixed = true)) ∧
      ∀ t, call w.backend p = .ok t → t = if p.complexValued then cplxTy w.backend else realTy w.backend := by
  intro w p hp
  have i : Inv w := Inv.run ⟨by simp [start], .inr (by simp [start])⟩ acts
  by_cases h : p.hasBase = false ∧ (Proper w.backend ∨ p.unmixed = true)
  · have := eval_ok (i.typed p hp) h.1 h.2
    refine ⟨⟨fun _ => h, fun _ => ⟨_, this⟩⟩, fun t ht => ?_⟩
    exact (Except.ok.inj (this.symm.trans ht)).symm
  · have h' : p.hasBase = true ∨ (¬ Proper w.backend ∧ p.unmixed = false) := by
      by_contra hc
      push Not at hc
      refine h ⟨by simpa using hc.1, ?_⟩
      by_cases hb : Proper w.backend
      · exact .inl hb
      · exact .inr (by simpa using hc.2 hb)
    obtain ⟨e, he⟩ := eval_fails (i.typed p hp) h'
    have hno : ∀ t, call w.backend p ≠ .ok t := fun t ht => by
      unfold call at ht
      rw [he] at ht
      exact absurd ht (by simp)
    exact ⟨⟨fun ⟨t, ht⟩ => absurd ht (hno t), fun hh => absurd hh h⟩, fun t ht => absurd ht (hno t)⟩

/-- **C143.** Once a profile with variables or constants exists, or any profile was called, the precision is fixed: later programs never change the
dtype of the values of a profile that can be called. -/
theorem C143_stable (gpu : Bool) (acts later : List Act) :
    let w := run (start gpu) acts
    let w' := run w later
    ∀ p ∈ w.profiles, p.hasBase = false → p ∈ w'.profiles ∧ call w'.backend p = call w.backend p := by
  intro w w' p hp hbase
  have i : Inv w := Inv.run ⟨by simp [start], .inr (by simp [start])⟩ acts
  have hbare : ∀ q : TProf, bare q = true → q.hasBase = true := by
    intro q
    induction q with
    | bin f g ihf ihg =>
      simp only [bare, TProf.hasBase, Bool.and_eq_true, Bool.or_eq_true]
      exact fun h => .inl (ihf h.1)
    | powNum f c ih => exact ih
    | asComplex f ih => exact ih
    | base => simp [TProf.hasBase]
    | _ => simp [bare]
  have hinit : w.backend.initialized = true := by
    rcases i.fixed with h | h
    · exact h
    · rw [hbare p (h p hp)] at hbase; exact absurd hbase (by simp)
  have key : ∀ (later : List Act) (w : World), w.backend.initialized = true → p ∈ w.profiles →
      p ∈ (run w later).profiles ∧ (run w later).backend.dtype = w.backend.dtype := by
    intro later
    induction later with
    | nil => exact fun w _ hp => ⟨hp, rfl⟩
    | cons a later ih =>
      intro w hi hp
      have hs : (step w a).backend.initialized = true ∧ p ∈ (step w a).profiles ∧ (step w a).backend.dtype = w.backend.dtype := by
        cases a with
        | backend o =>
          refine ⟨?_, hp, ?_⟩ <;>
            cases o <;> simp [step, Backend.step, getDtype, getDtypeComplex, getDtypeInt, setFftBackend, setDtype, hi]
        | newBase => simp [step, World.push, hi, hp]
        | newGauss => simp [step, World.push, World.read, getDtype, hp]
        | newLaguerre => simp [step, World.push, World.read, getDtype, hp]
        | newZernike e => simp [step, World.push, World.read, getDtype, hp]
        | newWindow => simp [step, World.push, World.read, getDtype, hp]
        | newConstant c => simp [step, World.push, World.read, getDtype, hp]
        | op n m => simp only [step]; split <;> simp [World.push, hi, hp]
        | opNum n c => simp only [step]; split <;> simp [World.push, World.read, getDtype, hi, hp]
        | powNum n c => simp only [step]; split <;> simp [World.push, hi, hp]
        | move n => simp only [step]; split <;> simp [World.push, World.read, getDtype, hi, hp]
        | rescaleX n => simp only [step]; split <;> simp [World.push, World.read, getDtype, hi, hp]
        | rescaleY n => simp only [step]; split <;> simp [World.push, World.read, getDtype, hi, hp]
        | asComplex n => simp only [step]; split <;> simp [World.push, hi, hp]
        | call n => simp only [step]; split <;> simp [World.read, getDtype, hi, hp]
      obtain ⟨h1, h2⟩ := ih (step w a) hs.1 hs.2.1
      exact ⟨h1, h2.trans hs.2.2⟩
  obtain ⟨h1, h2⟩ := key later w hinit hp
  refine ⟨h1, ?_⟩
  have h3 : realTy w'.backend = realTy w.backend := by unfold realTy; rw [h2]
  have h4 : cplxTy w'.backend = cplxTy w.backend := by unfold cplxTy getDtypeComplex; rw [h2]
  have h5 : isDtype w'.backend = isDtype w.backend := by funext t; unfold isDtype; rw [h2]
  have h7 : castOperands w'.backend = castOperands w.backend := by
    funext t u
    unfold castOperands isDtypeComplex
    simp only [h4, h5]
  have h6 : ∀ (q : TProf) (x y : Ty), eval w'.backend x y q = eval w.backend x y q := by
    intro q
    induction q with
    | bin f g ihf ihg => intro x y; simp only [eval, ihf, ihg, h7]
    | _ => intro x y; simp_all [eval]
  unfold call
  rw [h3, h6]

/-- **C143 is false for other spellings.** `BACKEND.dtype = "float64"` is accepted; afterwards a Hermite-Gaussian and a Laguerre-Gaussian can
both be called, their product can be made, but calling it raises. -/
theorem C143_refuted (gpu : Bool) :
    ∃ acts : List Act, ∃ p q, (run (start gpu) acts).profiles = [p, q, .bin p q] ∧
      (run (start gpu) acts).backend.dtype = .alias64 "float64" ∧
      call (run (start gpu) acts).backend p = .ok .f64 ∧ call (run (start gpu) acts).backend q = .ok .c128 ∧
      call (run (start gpu) acts).backend (.bin p q) = .error .tensorflow := by
  refine ⟨[.backend (.setDtype (.alias64 "float64")), .newGauss, .newLaguerre, .op 0 1], .gauss .f64, .laguerre .f64, ?_, ?_, ?_, ?_, ?_⟩ <;>
    cases gpu <;> rfl

/-- A program that meets the hypothesis of `C143_partial`: double precision, the product of a real and a complex profile, shifted, an attempt
to change the precision afterwards, and a call. -/
example (gpu : Bool) :
    let acts : List Act := [.backend (.setDtype .float64), .newGauss, .newLaguerre, .op 0 1, .move 2,
      .backend (.setDtype .float32), .opNum 3 .real, .call 4]
    ProperActs acts ∧ ∃ p ∈ (run (start gpu) acts).profiles, p.hasBase = false ∧ p.complexValued = true ∧ p.unmixed = false ∧
      call (run (start gpu) acts).backend p = .ok .c128 := by
  intro acts
  refine ⟨fun v hv name => ?_, .bin (.move .f64 (.bin (.gauss .f64) (.laguerre .f64))) (.const .f64), ?_, rfl, rfl, rfl, ?_⟩
  · simp only [acts, List.mem_cons, Act.backend.injEq, Op.setDtype.injEq, reduceCtorEq, List.not_mem_nil, or_false, false_or] at hv
    rcases hv with rfl | rfl <;> simp
  · cases gpu <;> simp [acts, run, step, start, World.push, World.read, getDtype, init, realTy, numTy, Backend.step, setDtype, DType.eq32, DType.eq64]
  · cases gpu <;> rfl

end PySLM2.Precision
