import Verif.Lemmas.Controller

/-!
# Counting the sequences on an ALP device
-/

namespace PySLM2.Controller.Alp

theorem allocations_self (fault : ℕ → Bool) (log : List Cmd) : allocations fault log.length log = 0 := by
  unfold allocations
  rw [List.length_eq_zero_iff, List.filter_eq_nil_iff]
  intro k hk
  have := List.mem_range.mp hk
  simp
  omega

theorem allocations_snoc (fault : ℕ → Bool) {start : ℕ} {log : List Cmd} (h : start ≤ log.length) (cmd : Cmd) :
    allocations fault start (log ++ [cmd]) =
      allocations fault start log + if fault log.length = false ∧ cmd.isAlloc = true then 1 else 0 := by
  unfold allocations
  rw [List.length_append, List.length_singleton, List.range_succ, List.filter_append, List.length_append]
  congr 1
  · congr 1
    refine List.filter_congr fun k hk => ?_
    rw [List.getElem?_append_left (List.mem_range.mp hk)]
  · rw [List.filter_singleton]
    simp only [h, decide_true, Bool.true_and, List.getElem?_concat_length, Option.map_some, Option.getD_some]
    cases fault log.length <;> cases cmd.isAlloc <;> simp

/-- `n` sequences are allocated, with different numbers, and the last one is the one `FreeSeq` frees. -/
def Holds (n : ℕ) (d : Dev) : Prop :=
  d.seqs.length = n ∧ (d.seqs.map fun s => s.1).Nodup ∧ Fresh d ∧ (n ≠ 0 → ∃ s ∈ d.seqs, d.last = some s.1)

theorem Holds.apply {n : ℕ} {d : Dev} (h : Holds n d) {cmd : Cmd} (h1 : cmd ≠ .initialize) (h2 : cmd ≠ .freeSeq) :
    Holds (n + if cmd.isAlloc = true then 1 else 0) (Alp.apply d cmd) := by
  obtain ⟨hn, hd, hf, hl⟩ := h
  have hf' := fresh_apply hf cmd
  cases cmd with
  | «initialize» => exact absurd rfl h1
  | freeSeq => exact absurd rfl h2
  | seqAlloc m =>
    refine ⟨by simp [Alp.apply, Cmd.isAlloc, hn], ?_, hf', fun _ => ⟨(d.next, m, []), by simp [Alp.apply], rfl⟩⟩
    simp only [Alp.apply, List.map_append, List.map_cons, List.map_nil]
    rw [List.nodup_append]
    refine ⟨hd, by simp, ?_⟩
    intro a ha b hb
    obtain ⟨s, hs, rfl⟩ := List.mem_map.mp ha
    rw [List.mem_singleton] at hb
    have := hf s hs
    omega
  | seqPut data =>
    refine ⟨by simp [Alp.apply, Cmd.isAlloc, hn], ?_, hf', fun hm => ?_⟩
    · simp only [Alp.apply, List.map_map]
      convert hd using 2
      funext s
      simp only [Function.comp]
      split_ifs <;> rfl
    · obtain ⟨s, hs, e⟩ := hl (by simpa [Cmd.isAlloc] using hm)
      refine ⟨_, List.mem_map.mpr ⟨s, hs, rfl⟩, ?_⟩
      simp only [Alp.apply, e]
      split_ifs <;> rfl
  | _ => exact ⟨hn, hd, hf', hl⟩

/-- The invariant: what is allocated is what was allocated since call number `start`. -/
def Counts (fault : ℕ → Bool) (start : ℕ) (c : Ctl) : Prop :=
  start ≤ c.log.length ∧ Holds (allocations fault start c.log) c.dev

theorem counts_sendAll (fault : ℕ → Bool) {start : ℕ} (cmds : List Cmd) : ∀ {c : Ctl}, Counts fault start c →
    .initialize ∉ cmds → .freeSeq ∉ cmds → Counts fault start (sendAll fault c cmds).1 := by
  induction cmds with
  | nil => intro c h _ _; exact h
  | cons cmd cmds ih =>
    intro c h h1 h2
    have hs := allocations_snoc fault h.1 cmd
    simp only [sendAll, send]
    by_cases hf : fault c.log.length = true
    · simp only [hf, if_true, Bool.false_eq_true, if_false]
      refine ⟨by simp; have := h.1; omega, ?_⟩
      show Holds (allocations fault start (c.log ++ [cmd])) c.dev
      rw [hs, hf]
      simpa using h.2
    · simp only [Bool.not_eq_true] at hf
      simp only [hf, Bool.false_eq_true, if_false, if_true]
      refine ih ⟨by simp; have := h.1; omega, ?_⟩ (by simp_all) (by simp_all)
      show Holds (allocations fault start (c.log ++ [cmd])) (Alp.apply c.dev cmd)
      rw [hs, hf]
      simpa using h.2.apply (cmd := cmd) (by rintro rfl; simp at h1) (by rintro rfl; simp at h2)

theorem counts_step (fault : ℕ → Bool) {start : ℕ} {c : Ctl} (h : Counts fault start c) {op : Op} (h1 : op ≠ .initialize)
    (h2 : op ≠ .close) : Counts fault start (step fault c op).1 := by
  have hg : ∀ body : Ctl × Except PyErr Unit, Counts fault start body.1 → Counts fault start (guarded c body).1 := by
    intro body hb
    unfold guarded
    split_ifs
    · exact hb
    · exact h
  cases op with
  | «initialize» => exact absurd rfl h1
  | close => exact absurd rfl h2
  | loadSingle img => exact hg _ (counts_sendAll fault _ h (by simp [loadSingleCmds]) (by simp [loadSingleCmds]))
  | loadMultiple imgs =>
    refine hg _ ?_
    split_ifs
    · simp only
      split <;> exact counts_sendAll fault _ h (by simp) (by simp)
    · exact counts_sendAll fault _ h (by simp [loadMultipleCmds]) (by simp [loadMultipleCmds])
  | queryNx => exact hg _ (counts_sendAll fault _ h (by simp) (by simp))
  | queryNy => exact hg _ (counts_sendAll fault _ h (by simp) (by simp))
  | numberImage => exact hg _ (counts_sendAll fault _ h (by simp) (by simp))
  | fireTrigger => exact h
  | loadSequence => exact hg _ h

theorem counts_run (fault : ℕ → Bool) {start : ℕ} (ops : List Op) : ∀ {c : Ctl}, Counts fault start c → .initialize ∉ ops →
    .close ∉ ops → Counts fault start (run fault c ops) := by
  induction ops with
  | nil => intro c h _ _; exact h
  | cons op ops ih =>
    intro c h h1 h2
    exact ih (counts_step fault h (by rintro rfl; simp at h1) (by rintro rfl; simp at h2)) (by simp_all) (by simp_all)

theorem counts_initialize {fault : ℕ → Bool} {c : Ctl} (h : (step fault c .initialize).2 = .ok ()) :
    Counts fault (step fault c .initialize).1.log.length (step fault c .initialize).1 := by
  refine ⟨le_refl _, ?_⟩
  rw [allocations_self]
  have := (initialize_dev h).2
  exact ⟨by rw [this]; rfl, by rw [this]; simp, fun s hs => by rw [this] at hs; simp at hs, fun h0 => absurd rfl h0⟩

/-- Removing the one entry with a given number. -/
theorem filter_one {l : List (ℕ × ℕ × List ℕ)} (hd : (l.map fun s => s.1).Nodup) {s : ℕ × ℕ × List ℕ} (hs : s ∈ l) :
    (l.filter fun t => some t.1 ≠ some s.1).length = l.length - 1 := by
  induction l with
  | nil => simp at hs
  | cons t l ih =>
    rw [List.map_cons, List.nodup_cons] at hd
    rcases List.mem_cons.mp hs with rfl | hs
    · rw [List.filter_cons_of_neg (by simp), List.filter_eq_self.mpr]
      · simp
      · intro u hu
        have : u.1 ≠ s.1 := fun e => hd.1 (List.mem_map.mpr ⟨u, hu, e⟩)
        simpa using this
    · have hne : t.1 ≠ s.1 := fun e => hd.1 (List.mem_map.mpr ⟨s, hs, e.symm⟩)
      rw [List.filter_cons_of_pos (by simpa using hne), List.length_cons, ih hd.2 hs, List.length_cons]
      have := List.length_pos_of_mem hs
      omega

theorem close_counts {fault : ℕ → Bool} {c : Ctl} (h : (step fault c .close).2 = .ok ()) {n : ℕ} (hn : Holds n c.dev) :
    (step fault c .close).1.dev.seqs.length = n - 1 := by
  obtain ⟨hl, hd, -, hs⟩ := hn
  simp only [step] at h ⊢
  rw [sendAll_ok _ _ h]
  by_cases h0 : n = 0
  · subst h0
    have e : c.dev.seqs = [] := List.length_eq_zero_iff.mp hl
    simp only [closeCmds]
    split_ifs <;> simp [Alp.apply, e]
  · obtain ⟨s, hm, e⟩ := hs h0
    simp only [closeCmds, e, Option.isSome_some, if_true, List.foldl_append, List.foldl_cons, List.foldl_nil, Alp.apply]
    rw [filter_one hd hm, hl]

end PySLM2.Controller.Alp
