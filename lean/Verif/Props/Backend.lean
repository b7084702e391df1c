import Verif.Lemmas.Backend

/-!
# C01, C02, C03: the backend configuration
-/

namespace PySLM2.Backend

open Spec

/-- **C01.** Once a precision was read, nothing in the rest of the history changes the precision in
force. -/
theorem C01_frozen (pre post : List Op) (h : locked pre) : chosen (pre ++ post) = chosen pre :=
  chosen_frozen pre post h

/-- **C01.** Every observation of every history of reads and assignments is the one the specification
computes from the accesses made before it: reads show the last valid assignment made before the first
read ever; an assignment after any read raises `AssertionError`, an invalid one before it `ValueError`.
Together with `C01_frozen` (the precision shown by reads never changes after the first read) and
`C01_rejected_changes_nothing`. -/
theorem C01_observations (gpu : Bool) (ops : List Op) :
    (run (init gpu) ops).2 = observations gpu [] ops := (reached_run gpu ops [] _ (reached_init gpu)).2

/-- **C01.** All precision reads of one history agree on a single precision. -/
theorem C01_reads_agree (gpu : Bool) (ops : List Op) :
    ∃ d : DType, (single d ∨ double d) ∧
      ∀ o ∈ (run (init gpu) ops).2,
        (∀ d', o = .dtype d' → d' = d) ∧ (∀ c, o = .cdtype c → c = complexOf d) ∧
        (∀ i, o = .idtype i → i = intOf d) := by
  refine ⟨chosen ops, (valid_iff _).mp (chosen_valid ops), ?_⟩
  rw [C01_observations]
  have key : ∀ (post pre : List Op) (o), o ∈ observations gpu pre post →
      (∀ d', o = .dtype d' → d' = chosen (pre ++ post)) ∧
      (∀ c, o = .cdtype c → c = complexOf (chosen (pre ++ post))) ∧
      (∀ i, o = .idtype i → i = intOf (chosen (pre ++ post))) := by
    intro post
    induction post with
    | nil => intro pre o ho; simp [observations] at ho
    | cons op post ih =>
      intro pre o ho
      rw [observations, List.mem_cons] at ho
      rcases ho with ho | ho
      · have hread : isRead op = true → chosen (pre ++ op :: post) = chosen pre := by
          intro hr
          have h1 : chosen (pre ++ [op]) = chosen pre := by
            by_cases hl : locked pre = true
            · exact C01_frozen pre [op] hl
            · have hany : pre.any (fun a => !(!isRead a)) = false := by
                simpa [locked, Function.comp] using hl
              unfold chosen
              rw [takeWhile_append_of_not_any (p := fun op => !isRead op) pre [op] hany]
              have := takeWhile_append_of_not_any (p := fun op => !isRead op) pre [] hany
              simp only [List.append_nil, List.takeWhile_nil] at this
              rw [this]
              simp [hr]
          have h2 : locked (pre ++ [op]) = true := by simp [locked, hr]
          have h3 := C01_frozen (pre ++ [op]) post h2
          rw [List.append_assoc, List.singleton_append] at h3
          rw [h3, h1]
        cases op with
        | readDtype =>
          rw [hread rfl]; subst ho; simp [observe]
        | readComplex =>
          rw [hread rfl]; subst ho; simp [observe]
        | readInt =>
          rw [hread rfl]; subst ho; simp [observe]
        | readFft => subst ho; simp [observe]
        | setFft v => subst ho; simp [observe]
        | setDtype v =>
          subst ho
          simp only [observe]
          split_ifs <;> simp
      · have := ih (pre ++ [op]) o ho
        simpa [List.append_assoc] using this
  intro o ho
  simpa using key ops [] o ho

/-- **C01.** A rejected assignment changes nothing at all. -/
theorem C01_rejected_changes_nothing (s : State) (v : DType) (e : PyErr)
    (h : (step s (.setDtype v)).2 = .raised e) : (step s (.setDtype v)).1 = s := by
  simp only [step] at h ⊢
  cases hs : setDtype s v <;> simp_all

/-- The hypotheses are met: a history with assignments before and after the first read. -/
example : (run (init false)
      [.setDtype .float64, .setDtype (.other "int8"), .readComplex, .setDtype .float32, .readDtype]).2
    = [.done, .raised .valueError, .cdtype .complex128, .raised .assertionError, .dtype .float64] := by
  decide

/-- Other spellings are accepted and mean the same. -/
example : (run (init true) [.setDtype (.alias64 "float64"), .readDtype, .readComplex, .readInt]).2
    = [.done, .dtype (.alias64 "float64"), .cdtype .complex128, .idtype .int64] := by
  decide

example : locked [.setDtype .float64, .readInt] = true := by decide

/-- **C02.** After any history the three precisions a program can read are one of the two consistent
triples. -/
theorem C02_consistent_triple (gpu : Bool) (ops : List Op) :
    let s := (run (init gpu) ops).1
    (single (getDtype s).2 ∧ (getDtypeComplex s).2 = .complex64 ∧ (getDtypeInt s).2 = .int32) ∨
    (double (getDtype s).2 ∧ (getDtypeComplex s).2 = .complex128 ∧ (getDtypeInt s).2 = .int64) := by
  obtain ⟨⟨hd, -, -⟩, -⟩ := reached_run gpu ops [] _ (reached_init gpu)
  have hd' : (run (init gpu) ops).1.dtype = chosen ops := by simpa using hd
  rcases (valid_iff _).mp (chosen_valid ops) with h | h
  · left
    refine ⟨by simpa [getDtype, hd'] using h, ?_⟩
    rcases h with h | ⟨n, h⟩ <;> simp [getDtypeComplex, getDtypeInt, hd', h, DType.eq32]
  · right
    refine ⟨by simpa [getDtype, hd'] using h, ?_⟩
    rcases h with h | ⟨n, h⟩ <;> simp [getDtypeComplex, getDtypeInt, hd', h, DType.eq32]

/-- **C03.** Assigning `fft_backend` succeeds in every state, keeps the precision and its lock, and is
what the next read returns; the numpy transform is used exactly for the value `FFT_BACKEND_NUMPY = 1`. -/
theorem C03_fft_selector (gpu : Bool) (ops : List Op) (v : Int) :
    let s := (run (init gpu) ops).1
    let s' := (step s (.setFft v)).1
    (step s (.setFft v)).2 = .done ∧ s'.dtype = s.dtype ∧ s'.initialized = s.initialized ∧
      (step s' .readFft).2 = .fft v ∧
      (selectFft s' = .numpy ↔ v = 1) ∧ (selectFft s' = .tensorflow ↔ v ≠ 1) := by
  simp only [step, setFftBackend, getFftBackend, selectFft, FFT_BACKEND_NUMPY]
  by_cases hv : v = 1 <;> simp [hv]

/-- **C03.** The transform in use after any history is decided by the last value assigned to `fft_backend`;
as long as nothing was assigned it is the tensorflow one on a machine with a GPU and numpy's otherwise. -/
theorem C03_in_force (gpu : Bool) (ops : List Op) :
    let s := (run (init gpu) ops).1
    (∀ before v after, ops = before ++ .setFft v :: after → (∀ w, Op.setFft w ∉ after) →
      (step s .readFft).2 = .fft v ∧ (selectFft s = .numpy ↔ v = 1)) ∧
    ((∀ v, Op.setFft v ∉ ops) →
      (step s .readFft).2 = .fft (if gpu then 0 else 1) ∧ (selectFft s = .tensorflow ↔ gpu = true)) := by
  obtain ⟨⟨-, -, hf⟩, -⟩ := reached_run gpu ops [] _ (reached_init gpu)
  have hf' : (run (init gpu) ops).1.fftBackend = chosenFft gpu ops := by simpa using hf
  have none : ∀ {l : List Op}, (∀ v, Op.setFft v ∉ l) →
      l.filterMap (fun op => match op with | .setFft v => some v | _ => (none : Option Int)) = [] := by
    intro l hl
    rw [List.filterMap_eq_nil_iff]
    intro op hop
    cases op <;> first | rfl | exact absurd hop (hl _)
  simp only [step, getFftBackend, selectFft, FFT_BACKEND_NUMPY, hf']
  refine ⟨fun before v after he hn => ?_, fun hn => ?_⟩
  · have : chosenFft gpu ops = v := by
      unfold chosenFft
      rw [he, List.filterMap_append, List.filterMap_cons]
      simp only
      erw [none hn]
      simp
    rw [this]
    by_cases h1 : v = 1 <;> simp [h1]
  · have : chosenFft gpu ops = if gpu then 0 else 1 := by
      unfold chosenFft
      erw [none hn]
      simp
    rw [this]
    cases gpu <;> simp

/-- **C03.** Removing all `fft_backend` accesses from a history changes no precision observation. -/
theorem C03_fft_irrelevant_for_precision (ops : List Op) :
    chosen ops = chosen (ops.filter fun op => match op with
      | .setFft _ | .readFft => false | _ => true) ∧
    locked ops = locked (ops.filter fun op => match op with
      | .setFft _ | .readFft => false | _ => true) := by
  constructor
  · unfold chosen
    congr 2
    induction ops with
    | nil => rfl
    | cons op ops ih =>
      cases op <;> simp_all [isRead, acceptedSet, List.filterMap_cons]
  · unfold locked
    induction ops with
    | nil => rfl
    | cons op ops ih =>
      cases op <;> simp_all [isRead]

example : selectFft (run (init true) [.setFft 1]).1 = .numpy ∧
    selectFft (run (init false) [.setFft 7]).1 = .tensorflow ∧
    selectFft (run (init false) [.readDtype]).1 = .numpy := by decide

end PySLM2.Backend
