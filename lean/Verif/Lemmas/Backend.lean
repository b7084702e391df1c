import Verif.Spec.Backend

/-! Helper lemmas for `Props/Backend`. -/

namespace PySLM2.Backend

open Spec

/-- The state reached by a history, in terms of the history. -/
def Reached (gpu : Bool) (hist : List Op) (s : State) : Prop :=
  s.dtype = chosen hist ∧ s.initialized = locked hist ∧ s.fftBackend = chosenFft gpu hist

theorem takeWhile_append_of_any {p : Op → Bool} (l l' : List Op) (h : l.any (fun a => !p a)) :
    (l ++ l').takeWhile p = l.takeWhile p := by
  induction l with
  | nil => simp at h
  | cons a l ih =>
    by_cases ha : p a
    · simp only [List.any_cons, ha, Bool.not_true, Bool.false_or] at h
      simp [ha, ih h]
    · simp [ha]

theorem takeWhile_append_of_not_any {p : Op → Bool} (l l' : List Op)
    (h : l.any (fun a => !p a) = false) :
    (l ++ l').takeWhile p = l ++ l'.takeWhile p := by
  induction l with
  | nil => simp
  | cons a l ih =>
    simp only [List.any_cons, Bool.or_eq_false_iff, Bool.not_eq_false'] at h
    simp [h.1, ih h.2]

theorem chosen_frozen (pre post : List Op) (h : locked pre) : chosen (pre ++ post) = chosen pre := by
  unfold chosen
  rw [takeWhile_append_of_any]
  simpa [locked, Function.comp] using h

theorem valid_eq (v : DType) : valid v = (v.eq32 || v.eq64) := by cases v <;> rfl

theorem complexOf_eq (v : DType) : complexOf v = if v.eq32 then .complex64 else .complex128 := by cases v <;> rfl

theorem intOf_eq (v : DType) : intOf v = if v.eq32 then .int32 else .int64 := by cases v <;> rfl

theorem valid_iff (v : DType) : valid v = true ↔ single v ∨ double v := by
  cases v <;> simp [valid, single, double]

theorem chosen_valid (hist : List Op) : valid (chosen hist) = true := by
  unfold chosen
  cases hx : ((hist.takeWhile fun op => !isRead op).filterMap acceptedSet).getLast? with
  | none => rfl
  | some v =>
    have hm := List.mem_of_getLast? hx
    rw [List.mem_filterMap] at hm
    obtain ⟨op, -, ho⟩ := hm
    cases op <;> simp [acceptedSet] at ho
    obtain ⟨h1, rfl⟩ := ho
    exact h1

theorem reached_step (gpu : Bool) (hist : List Op) (s : State) (hs : Reached gpu hist s) (op : Op) :
    Reached gpu (hist ++ [op]) (step s op).1 ∧ (step s op).2 = observe gpu hist op := by
  obtain ⟨hd, hi, hf⟩ := hs
  by_cases hl : locked hist = true
  · -- locked
    have hc := chosen_frozen hist [op] hl
    have hl' : locked (hist ++ [op]) = true := by simp [locked] at hl ⊢; exact Or.inl hl
    cases op <;>
      simp [step, Reached, observe, getDtype, getDtypeComplex, getDtypeInt, getFftBackend,
        setFftBackend, setDtype, hd, hi, hf, hl, hl', hc, chosenFft, List.filterMap_append,
        complexOf_eq, intOf_eq]
  · have hl0 : locked hist = false := by simpa using hl
    have hany : hist.any (fun a => !(!isRead a)) = false := by
      simpa [locked, Function.comp] using hl0
    have hc : ∀ op, chosen (hist ++ [op]) =
        (((hist ++ [op].takeWhile fun op => !isRead op).filterMap acceptedSet).getLast?).getD
          .float32 := by
      intro op
      unfold chosen
      rw [takeWhile_append_of_not_any (p := fun op => !isRead op) hist [op] hany]
    have hc0 : chosen hist = ((hist.filterMap acceptedSet).getLast?).getD .float32 := by
      unfold chosen
      have := takeWhile_append_of_not_any (p := fun op => !isRead op) hist [] hany
      simp only [List.append_nil, List.takeWhile_nil] at this
      rw [this]
    have hl1 : ∀ op, locked (hist ++ [op]) = isRead op := by
      intro op
      have : (hist ++ [op]).any isRead = (hist.any isRead || isRead op) := by simp
      unfold locked
      rw [this]
      rw [locked] at hl0
      rw [hl0, Bool.false_or]
    have hcn : ∀ op, acceptedSet op = none → chosen (hist ++ [op]) = chosen hist := by
      intro op hop
      rw [hc, hc0]
      by_cases hr : isRead op <;> simp [hr, hop, List.filterMap_append]
    cases op with
    | setDtype v =>
      have hv := valid_eq v
      cases h : (v.eq32 || v.eq64)
      · rw [h] at hv
        simp [step, Reached, observe, setDtype, hd, hi, hf, hl0, hl1, hc, hc0, chosenFft,
          isRead, h, hv, List.filterMap_append, acceptedSet]
      · rw [h] at hv
        simp [step, Reached, observe, setDtype, hd, hi, hf, hl0, hl1, hc, chosenFft,
          isRead, h, hv, List.filterMap_append, acceptedSet]
    | _ =>
      simp [step, Reached, observe, getDtype, getDtypeComplex, getDtypeInt, getFftBackend,
        setFftBackend, hd, hi, hf, hl0, hl1, hcn .readDtype rfl, hcn .readComplex rfl, hcn .readInt rfl, hcn .readFft rfl,
        fun v => hcn (.setFft v) rfl, chosenFft, isRead, List.filterMap_append,
        acceptedSet, complexOf_eq, intOf_eq]

theorem reached_run (gpu : Bool) (ops hist : List Op) (s : State) (hs : Reached gpu hist s) :
    Reached gpu (hist ++ ops) (run s ops).1 ∧ (run s ops).2 = observations gpu hist ops := by
  induction ops generalizing hist s with
  | nil => simpa [run, observations] using hs
  | cons op ops ih =>
    obtain ⟨h1, h2⟩ := reached_step gpu hist s hs op
    obtain ⟨h3, h4⟩ := ih (hist ++ [op]) (step s op).1 h1
    refine ⟨?_, ?_⟩
    · simpa [run] using h3
    · simp [run, observations, h2, h4]

theorem reached_init (gpu : Bool) : Reached gpu [] (init gpu) := by
  cases gpu <;> simp [Reached, init, chosen, locked, chosenFft, FFT_BACKEND_TENSORFLOW,
    FFT_BACKEND_NUMPY]

end PySLM2.Backend
