import Verif.Spec.Controller
import Mathlib.Data.List.Basic
import Mathlib.Data.Nat.ModEq
import Mathlib.Tactic.Common

/-!
# Controller lemmas
-/

namespace PySLM2.Controller

namespace Alp

/-- A successful sequence of vendor calls applies all of them. -/
theorem sendAll_ok {fault : ℕ → Bool} (cmds : List Cmd) : ∀ (c : Ctl), (sendAll fault c cmds).2 = .ok () →
    (sendAll fault c cmds).1 = { c with dev := cmds.foldl apply c.dev, log := c.log ++ cmds } := by
  induction cmds with
  | nil => intro c _; simp [sendAll]
  | cons cmd cmds ih =>
    intro c h
    simp only [sendAll, send] at h ⊢
    by_cases hf : fault c.log.length = true
    · simp [hf] at h
    · simp only [Bool.not_eq_true] at hf
      simp only [hf, Bool.false_eq_true, if_false, if_true] at h ⊢
      rw [ih _ h]
      simp

/-- In general a prefix of the calls is made and the last one of them may have failed. -/
theorem sendAll_prefix {fault : ℕ → Bool} (cmds : List Cmd) : ∀ (c : Ctl),
    (sendAll fault c cmds).1.initialized = c.initialized ∧ (sendAll fault c cmds).1.invert = c.invert ∧
    ∃ pre post, cmds = pre ++ post ∧ (sendAll fault c cmds).1.dev = pre.foldl apply c.dev := by
  induction cmds with
  | nil => intro c; exact ⟨rfl, rfl, [], [], rfl, rfl⟩
  | cons cmd cmds ih =>
    intro c
    simp only [sendAll, send]
    by_cases hf : fault c.log.length = true
    · simp only [hf, if_true, Bool.false_eq_true, if_false]
      exact ⟨trivial, trivial, [], cmd :: cmds, rfl, rfl⟩
    · simp only [Bool.not_eq_true] at hf
      simp only [hf, Bool.false_eq_true, if_false, if_true]
      obtain ⟨h1, h2, pre, post, h3, h4⟩ := ih { c with log := c.log ++ [cmd], dev := apply c.dev cmd }
      exact ⟨h1, h2, cmd :: pre, post, by rw [h3]; rfl, h4⟩

theorem sendAll_error {fault : ℕ → Bool} (cmds : List Cmd) : ∀ (c : Ctl) (e), (sendAll fault c cmds).2 = .error e → e = .exception := by
  induction cmds with
  | nil => intro c e h; simp [sendAll] at h
  | cons cmd cmds ih =>
    intro c e h
    simp only [sendAll, send] at h
    by_cases hf : fault c.log.length = true
    · simp [hf] at h; exact h.symm
    · simp only [Bool.not_eq_true] at hf
      simp only [hf, Bool.false_eq_true, if_false, if_true] at h
      exact ih _ _ h

theorem sendAll_result {fault : ℕ → Bool} (cmds : List Cmd) (c : Ctl) :
    (sendAll fault c cmds).2 = .ok () ∨ (sendAll fault c cmds).2 = .error .exception := by
  cases h : (sendAll fault c cmds).2 with
  | ok u => exact .inl rfl
  | error e => exact .inr (by rw [sendAll_error cmds c e h])

/-- Sequence ids are never reused. -/
def Fresh (d : Dev) : Prop := ∀ s ∈ d.seqs, s.1 < d.next

theorem fresh_apply {d : Dev} (h : Fresh d) (cmd : Cmd) : Fresh (apply d cmd) := by
  cases cmd with
  | «initialize» => intro s hs; simp [apply, Dev.init] at hs
  | seqAlloc n =>
    intro s hs
    simp only [apply, List.mem_append, List.mem_singleton] at hs ⊢
    rcases hs with hs | rfl
    · exact Nat.lt_succ_of_lt (h s hs)
    · exact Nat.lt_succ_self _
  | seqPut data =>
    intro s hs
    simp only [apply, List.mem_map] at hs ⊢
    obtain ⟨t, ht, rfl⟩ := hs
    split_ifs
    · exact h t ht
    · exact h t ht
  | freeSeq =>
    intro s hs
    simp only [apply, List.mem_filter] at hs ⊢
    exact h s hs.1
  | _ => exact h

theorem fresh_foldl (cmds : List Cmd) : ∀ {d : Dev}, Fresh d → Fresh (cmds.foldl apply d) := by
  induction cmds with
  | nil => intro d h; exact h
  | cons cmd cmds ih => intro d h; exact ih (fresh_apply h cmd)

/-- A public call changes the device by some sequence of vendor calls, and keeps `invert`. -/
theorem step_dev (fault : ℕ → Bool) (c : Ctl) (op : Op) :
    (step fault c op).1.invert = c.invert ∧ ∃ cmds : List Cmd, (step fault c op).1.dev = cmds.foldl apply c.dev := by
  have hs : ∀ cmds, (sendAll fault c cmds).1.invert = c.invert ∧ ∃ l : List Cmd, (sendAll fault c cmds).1.dev = l.foldl apply c.dev := by
    intro cmds
    obtain ⟨_, h2, pre, _, _, h3⟩ := sendAll_prefix (fault := fault) cmds c
    exact ⟨h2, pre, h3⟩
  have hg : ∀ body : Ctl × Except PyErr Unit, (body.1.invert = c.invert ∧ ∃ l : List Cmd, body.1.dev = l.foldl apply c.dev) →
      (guarded c body).1.invert = c.invert ∧ ∃ l : List Cmd, (guarded c body).1.dev = l.foldl apply c.dev := by
    intro body hb
    unfold guarded
    split_ifs
    · exact hb
    · exact ⟨rfl, [], rfl⟩
  cases op with
  | «initialize» =>
    simp only [step]
    split <;> exact hs _
  | close => exact hs _
  | loadSingle img => exact hg _ (hs _)
  | loadMultiple imgs =>
    refine hg _ ?_
    split_ifs
    · simp only
      split <;> exact hs _
    · exact hs _
  | queryNx => exact hg _ (hs _)
  | queryNy => exact hg _ (hs _)
  | numberImage => exact hg _ (hs _)
  | fireTrigger => exact ⟨rfl, [], rfl⟩
  | loadSequence => exact hg _ ⟨rfl, [], rfl⟩

theorem fresh_run (fault : ℕ → Bool) (ops : List Op) : ∀ {c : Ctl}, Fresh c.dev → Fresh (run fault c ops).dev := by
  induction ops with
  | nil => intro c h; exact h
  | cons op ops ih =>
    intro c h
    refine ih ?_
    obtain ⟨_, cmds, hc⟩ := step_dev fault c op
    rw [hc]
    exact fresh_foldl cmds h

theorem fresh_new (invert : Bool) : Fresh (Ctl.new invert).dev := fun s hs => by simp [Ctl.new, Dev.init] at hs

/-- The flag records whether some `initialize()` has completed. -/
theorem initialized_iff (fault : ℕ → Bool) (ops : List Op) : ∀ c : Ctl,
    (run fault c ops).initialized = true ↔ c.initialized = true ∨ InitCompleted fault c ops := by
  have hguard : ∀ (c : Ctl) (body : Ctl × Except PyErr Unit), body.1.initialized = c.initialized →
      (guarded c body).1.initialized = c.initialized := by
    intro c body hb
    unfold guarded
    split_ifs
    · exact hb
    · rfl
  have hs : ∀ (c : Ctl) cmds, (sendAll fault c cmds).1.initialized = c.initialized := fun c cmds => (sendAll_prefix cmds c).1
  have hstep : ∀ (c : Ctl) (op : Op), op ≠ .initialize → (step fault c op).1.initialized = c.initialized := by
    intro c op hop
    cases op with
    | «initialize» => exact absurd rfl hop
    | close => exact hs _ _
    | loadSingle img => exact hguard _ _ (hs _ _)
    | loadMultiple imgs =>
      refine hguard _ _ ?_
      split_ifs
      · simp only
        split <;> exact hs _ _
      · exact hs _ _
    | queryNx => exact hguard _ _ (hs _ _)
    | queryNy => exact hguard _ _ (hs _ _)
    | numberImage => exact hguard _ _ (hs _ _)
    | fireTrigger => rfl
    | loadSequence => exact hguard _ _ rfl
  have hinit : ∀ (c : Ctl), (step fault c .initialize).1.initialized = true ↔
      c.initialized = true ∨ (step fault c .initialize).2 = .ok () := by
    intro c
    simp only [step]
    rcases sendAll_result (fault := fault) (initCmds c.invert) c with h | h
    · simp [h]
    · simp [h, hs]
  induction ops with
  | nil => intro c; simp [run, InitCompleted]
  | cons op ops ih =>
    intro c
    rw [run, ih]
    by_cases hop : op = .initialize
    · subst hop
      rw [hinit]
      simp only [InitCompleted, true_and]
      tauto
    · rw [hstep c op hop]
      simp only [InitCompleted, hop, false_and, false_or]

theorem sendAll_clean {fault : ℕ → Bool} (hf : ∀ k, fault k = false) (cmds : List Cmd) : ∀ (c : Ctl),
    sendAll fault c cmds = ({ c with dev := cmds.foldl apply c.dev, log := c.log ++ cmds }, .ok ()) := by
  induction cmds with
  | nil => intro c; simp [sendAll]
  | cons cmd cmds ih =>
    intro c
    simp only [sendAll, send, hf, Bool.false_eq_true, if_false, if_true, ih]
    simp

theorem run_append (fault : ℕ → Bool) (a : List Op) : ∀ (c : Ctl) (b : List Op),
    run fault c (a ++ b) = run fault (run fault c a) b := by
  induction a with
  | nil => intro c b; rfl
  | cons op a ih => intro c b; exact ih _ b

/-- The vendor calls a public call may make. -/
def vendor (c : Ctl) : Op → List Cmd
  | .initialize => initCmds c.invert
  | .close => closeCmds c.dev.last
  | .loadSingle img => loadSingleCmds img
  | .loadMultiple imgs => loadMultipleCmds imgs
  | .queryNx => [.inquireWidth]
  | .queryNy => [.inquireHeight]
  | .numberImage => [.inquireWidth, .inquireHeight]
  | .fireTrigger => []
  | .loadSequence => []

/-- A public call other than an empty `load_multiple` makes a prefix of its vendor calls. -/
theorem step_prefix (fault : ℕ → Bool) (c : Ctl) (op : Op) (hop : op ≠ .loadMultiple []) :
    ∃ pre post, vendor c op = pre ++ post ∧ (step fault c op).1.dev = pre.foldl apply c.dev := by
  have hs : ∀ cmds, ∃ pre post, cmds = pre ++ post ∧ (sendAll fault c cmds).1.dev = pre.foldl apply c.dev := by
    intro cmds
    obtain ⟨_, _, pre, post, h, h3⟩ := sendAll_prefix (fault := fault) cmds c
    exact ⟨pre, post, h, h3⟩
  have hg : ∀ (cmds : List Cmd) (body : Ctl × Except PyErr Unit),
      (∃ pre post, cmds = pre ++ post ∧ body.1.dev = pre.foldl apply c.dev) →
      ∃ pre post, cmds = pre ++ post ∧ (guarded c body).1.dev = pre.foldl apply c.dev := by
    intro cmds body hb
    unfold guarded
    split_ifs
    · exact hb
    · exact ⟨[], cmds, rfl, rfl⟩
  cases op with
  | «initialize» =>
    simp only [step]
    split <;> exact hs _
  | close => exact hs _
  | loadSingle img => exact hg _ _ (hs _)
  | loadMultiple imgs =>
    have h : imgs ≠ [] := fun h => hop (by rw [h])
    refine hg _ _ ?_
    rw [if_neg h]
    exact hs _
  | queryNx => exact hg _ _ (hs _)
  | queryNy => exact hg _ _ (hs _)
  | numberImage => exact hg _ _ (hs _)
  | fireTrigger => exact ⟨[], [], rfl, rfl⟩
  | loadSequence => exact hg _ _ ⟨[], [], rfl, rfl⟩

/-- A successful guarded load was initialized and made all its vendor calls. -/
theorem loadSingle_ok {fault : ℕ → Bool} {c : Ctl} {img : Image} (h : (step fault c (.loadSingle img)).2 = .ok ()) :
    c.initialized = true ∧ (step fault c (.loadSingle img)).1 =
      { c with dev := (loadSingleCmds img).foldl apply c.dev, log := c.log ++ loadSingleCmds img } := by
  simp only [step, guarded] at h ⊢
  by_cases hi : c.initialized = true
  · simp only [hi, if_true] at h ⊢
    exact ⟨trivial, by rw [sendAll_ok _ _ h]; simp [hi]⟩
  · simp [hi] at h

theorem loadMultiple_ok {fault : ℕ → Bool} {c : Ctl} {imgs : List Image}
    (h : (step fault c (.loadMultiple imgs)).2 = .ok ()) :
    c.initialized = true ∧ imgs ≠ [] ∧ (step fault c (.loadMultiple imgs)).1 =
      { c with dev := (loadMultipleCmds imgs).foldl apply c.dev, log := c.log ++ loadMultipleCmds imgs } := by
  simp only [step, guarded] at h ⊢
  by_cases hi : c.initialized = true
  · simp only [hi, if_true] at h ⊢
    by_cases hn : imgs = []
    · simp only [hn, if_true] at h
      split at h <;> simp at h
    · simp only [hn, if_false] at h ⊢
      exact ⟨trivial, hn, by rw [sendAll_ok _ _ h]; simp [hi]⟩
  · simp [hi] at h

theorem find_new {l : List (ℕ × ℕ × List ℕ)} {next n : ℕ} {data : List ℕ} (h : ∀ s ∈ l, s.1 < next) :
    (((l ++ [(next, n, [])]).map fun s : ℕ × ℕ × List ℕ => if some s.1 = some next then (s.1, s.2.1, data) else s).find?
      fun s => s.1 = next) = some (next, n, data) := by
  induction l with
  | nil => simp
  | cons s l ih =>
    have h1 : s.1 < next := h s (by simp)
    have h2 : s.1 ≠ next := h1.ne
    have := ih (fun t ht => h t (by simp [ht]))
    simp only [List.cons_append, List.map_cons, Option.some.injEq, h2, if_false] at this ⊢
    rw [List.find?_cons_of_neg (by simp [h2])]
    exact this

theorem projecting_single {d : Dev} (h : Fresh d) (img : Image) :
    ((loadSingleCmds img).foldl apply d).projecting = some (1, toBytes img) := by
  simp only [loadSingleCmds, List.foldl_cons, List.foldl_nil, apply, Dev.projecting, Option.bind_some]
  rw [find_new h]
  rfl

theorem projecting_multiple {d : Dev} (h : Fresh d) (imgs : List Image) :
    ((loadMultipleCmds imgs).foldl apply d).projecting = some (imgs.length, toBytes imgs.flatten) := by
  simp only [loadMultipleCmds, List.foldl_cons, List.foldl_nil, apply, Dev.projecting, Option.bind_some]
  rw [find_new h]
  rfl

theorem slave_foldl_false (cmds : List Cmd) : ∀ {d : Dev}, d.slave = false → Cmd.projSlave ∉ cmds →
    (cmds.foldl apply d).slave = false := by
  induction cmds with
  | nil => intro d h _; exact h
  | cons cmd cmds ih =>
    intro d h hm
    refine ih ?_ (fun h' => hm (by simp [h']))
    cases cmd with
    | projSlave => exact absurd (by simp) hm
    | «initialize» => rfl
    | _ => exact h

theorem slave_foldl_true (cmds : List Cmd) : ∀ {d : Dev}, d.slave = true → Cmd.initialize ∉ cmds →
    (cmds.foldl apply d).slave = true := by
  induction cmds with
  | nil => intro d h _; exact h
  | cons cmd cmds ih =>
    intro d h hm
    refine ih ?_ (fun h' => hm (by simp [h']))
    cases cmd with
    | projSlave => rfl
    | «initialize» => exact absurd (by simp) hm
    | _ => exact h

theorem slave_run_false (fault : ℕ → Bool) (ops : List Op) : ∀ {c : Ctl}, c.dev.slave = false →
    (∀ imgs, Op.loadMultiple imgs ∉ ops) → (run fault c ops).dev.slave = false := by
  induction ops with
  | nil => intro c h _; exact h
  | cons op ops ih =>
    intro c h hm
    refine ih ?_ (fun imgs h' => hm imgs (by simp [h']))
    have hop : ∀ imgs, op ≠ .loadMultiple imgs := fun imgs h' => hm imgs (by simp [h'])
    obtain ⟨pre, post, h1, h2⟩ := step_prefix fault c op (hop [])
    rw [h2]
    refine slave_foldl_false pre h (fun h' => ?_)
    have h3 : Cmd.projSlave ∈ vendor c op := by rw [h1]; simp [h']
    cases op with
    | loadMultiple imgs => exact hop imgs rfl
    | «initialize» => simp only [vendor, initCmds] at h3; split_ifs at h3 <;> simp at h3
    | close => simp only [vendor, closeCmds] at h3; split_ifs at h3 <;> simp at h3
    | _ => simp [vendor, loadSingleCmds] at h3

theorem slave_step_true (fault : ℕ → Bool) {c : Ctl} (h : c.dev.slave = true) {op : Op} (hop : op ≠ .initialize) :
    (step fault c op).1.dev.slave = true := by
  by_cases he : op = .loadMultiple []
  · subst he
    simp only [step, guarded, if_true]
    split_ifs
    · have : ∀ cmds, Cmd.initialize ∉ cmds → (sendAll fault c cmds).1.dev.slave = true := by
        intro cmds hc
        obtain ⟨_, _, pre, post, h1, h2⟩ := sendAll_prefix (fault := fault) cmds c
        rw [h2]
        exact slave_foldl_true pre h (fun h' => hc (by rw [h1]; simp [h']))
      split <;> exact this _ (by simp)
    · exact h
  · obtain ⟨pre, post, h1, h2⟩ := step_prefix fault c op he
    rw [h2]
    refine slave_foldl_true pre h (fun h' => ?_)
    have h3 : Cmd.initialize ∈ vendor c op := by rw [h1]; simp [h']
    cases op with
    | «initialize» => exact hop rfl
    | close => simp only [vendor, closeCmds] at h3; split_ifs at h3 <;> simp at h3
    | _ => simp [vendor, loadSingleCmds, loadMultipleCmds] at h3

theorem slave_run_true (fault : ℕ → Bool) (ops : List Op) : ∀ {c : Ctl}, c.dev.slave = true →
    Op.initialize ∉ ops → (run fault c ops).dev.slave = true := by
  induction ops with
  | nil => intro c h _; exact h
  | cons op ops ih =>
    intro c h hm
    exact ih (slave_step_true fault h (fun h' => hm (by simp [h']))) (fun h' => hm (by simp [h']))

theorem initialize_ok {fault : ℕ → Bool} {c : Ctl} (h : (step fault c .initialize).2 = .ok ()) :
    (step fault c .initialize).1.initialized = true ∧
      (step fault c .initialize).1.dev = (initCmds c.invert).foldl apply c.dev := by
  simp only [step] at h ⊢
  rcases sendAll_result (fault := fault) (initCmds c.invert) c with h1 | h1
  · have := sendAll_ok _ _ h1
    simp [h1, this]
  · simp [h1] at h

theorem initialize_dev {fault : ℕ → Bool} {c : Ctl} (h : (step fault c .initialize).2 = .ok ()) :
    (step fault c .initialize).1.dev.slave = false ∧ (step fault c .initialize).1.dev.seqs = [] := by
  rw [(initialize_ok h).2]
  cases c.invert <;> simp [initCmds, apply, Dev.init]

/-! ### Allocated sequences -/

/-- At most one sequence is allocated, and then it is the one `FreeSeq` frees. -/
def AtMostOne (d : Dev) : Prop := d.seqs = [] ∨ ∃ s, d.seqs = [s] ∧ d.last = some s.1

/-- Is this a load? -/
def Op.isLoad : Op → Bool
  | .loadSingle _ | .loadMultiple _ => true
  | _ => false

theorem noalloc_foldl (cmds : List Cmd) : ∀ {d : Dev}, AtMostOne d → (∀ n, Cmd.seqAlloc n ∉ cmds) →
    AtMostOne (cmds.foldl apply d) ∧ (d.seqs = [] → (cmds.foldl apply d).seqs = []) := by
  induction cmds with
  | nil => intro d h _; exact ⟨h, id⟩
  | cons cmd cmds ih =>
    intro d h hm
    have hm' : ∀ n, Cmd.seqAlloc n ∉ cmds := fun n h' => hm n (by simp [h'])
    have key : AtMostOne (apply d cmd) ∧ (d.seqs = [] → (apply d cmd).seqs = []) := by
      cases cmd with
      | seqAlloc n => exact absurd (by simp) (hm n)
      | «initialize» => exact ⟨.inl rfl, fun _ => rfl⟩
      | freeSeq =>
        have : (apply d .freeSeq).seqs = [] := by
          rcases h with h | ⟨s, h1, h2⟩
          · simp [apply, h]
          · simp [apply, h1, h2]
        exact ⟨.inl this, fun _ => this⟩
      | seqPut data =>
        refine ⟨?_, fun h => by simp [apply, h]⟩
        rcases h with h | ⟨s, h1, h2⟩
        · exact .inl (by simp [apply, h])
        · exact .inr ⟨(s.1, s.2.1, data), by simp [apply, h1, h2], h2⟩
      | _ => exact ⟨h, id⟩
    obtain ⟨h1, h2⟩ := ih key.1 hm'
    exact ⟨h1, fun h => h2 (key.2 h)⟩

theorem oneAlloc_foldl (pre : List Cmd) (n : ℕ) (post : List Cmd) {d : Dev} (h : d.seqs = [])
    (h1 : ∀ n, Cmd.seqAlloc n ∉ pre) (h2 : ∀ n, Cmd.seqAlloc n ∉ post) :
    AtMostOne ((pre ++ .seqAlloc n :: post).foldl apply d) := by
  rw [List.foldl_append, List.foldl_cons]
  have h3 := (noalloc_foldl pre (.inl h) h1).2 h
  refine (noalloc_foldl post (.inr ?_) h2).1
  exact ⟨_, by simp only [apply, h3]; rfl, rfl⟩

theorem prefix_oneAlloc {a b pre post : List Cmd} {n : ℕ} (h : a ++ .seqAlloc n :: b = pre ++ post)
    (ha : ∀ n, Cmd.seqAlloc n ∉ a) (hb : ∀ n, Cmd.seqAlloc n ∉ b) {d : Dev} (hd : d.seqs = []) :
    AtMostOne (pre.foldl apply d) := by
  rcases List.append_eq_append_iff.1 h with ⟨c, h1, h2⟩ | ⟨c, h1, h2⟩
  · cases c with
    | nil => subst h1; simp only [List.append_nil]; exact (noalloc_foldl a (.inl hd) ha).1
    | cons x c =>
      rw [List.cons_append, List.cons.injEq] at h2
      subst h1
      rw [← h2.1]
      refine oneAlloc_foldl a n c hd ha (fun m h' => hb m ?_)
      rw [h2.2]; simp [h']
  · subst h1
    exact (noalloc_foldl pre (.inl hd) (fun m h' => ha m (by simp [h']))).1

theorem step_atMostOne (fault : ℕ → Bool) {c : Ctl} (op : Op) :
    (op.isLoad = false → (AtMostOne c.dev → AtMostOne (step fault c op).1.dev) ∧
      (c.dev.seqs = [] → (step fault c op).1.dev.seqs = [])) ∧
    (c.dev.seqs = [] → AtMostOne (step fault c op).1.dev) := by
  have first : op.isLoad = false → ∀ h : AtMostOne c.dev, AtMostOne (step fault c op).1.dev ∧
      (c.dev.seqs = [] → (step fault c op).1.dev.seqs = []) := by
    intro hl h
    have hop : op ≠ .loadMultiple [] := by rintro rfl; simp [Op.isLoad] at hl
    obtain ⟨pre, post, h1, h2⟩ := step_prefix fault c op hop
    rw [h2]
    refine noalloc_foldl pre h (fun n h' => ?_)
    have h3 : Cmd.seqAlloc n ∈ vendor c op := by rw [h1]; simp [h']
    cases op with
    | «initialize» => simp only [vendor, initCmds] at h3; split_ifs at h3 <;> simp at h3
    | close => simp only [vendor, closeCmds] at h3; split_ifs at h3 <;> simp at h3
    | loadSingle img => simp [Op.isLoad] at hl
    | loadMultiple imgs => simp [Op.isLoad] at hl
    | _ => simp [vendor] at h3
  refine ⟨fun hl => ⟨fun h => (first hl h).1, fun h => (first hl (.inl h)).2 h⟩, fun hd => ?_⟩
  by_cases he : op = .loadMultiple []
  · subst he
    simp only [step, guarded, if_true]
    split_ifs
    · have : AtMostOne (sendAll fault c [.halt, .projSlave, .triggerRising, .seqAlloc 0, .seqControl]).1.dev := by
        obtain ⟨_, _, pre, post, h1, h2⟩ := sendAll_prefix (fault := fault)
          [.halt, .projSlave, .triggerRising, .seqAlloc 0, .seqControl] c
        rw [h2]
        exact prefix_oneAlloc (a := [.halt, .projSlave, .triggerRising]) (b := [.seqControl]) h1 (by simp) (by simp) hd
      split <;> exact this
    · exact .inl hd
  · cases hl : op.isLoad with
    | false => exact (first hl (.inl hd)).1
    | true =>
      obtain ⟨pre, post, h1, h2⟩ := step_prefix fault c op he
      rw [h2]
      cases op with
      | loadSingle img =>
        exact prefix_oneAlloc (a := [.halt]) (b := [.seqControl, .seqPut (toBytes img), .setTiming, .run])
          (n := 1) h1 (by simp) (by simp) hd
      | loadMultiple imgs =>
        exact prefix_oneAlloc (a := [.halt, .projSlave, .triggerRising])
          (b := [.seqControl, .seqPut (toBytes imgs.flatten), .seqInquire, .setTiming, .run])
          (n := imgs.length) h1 (by simp) (by simp) hd
      | _ => simp [Op.isLoad] at hl

theorem run_noLoad (fault : ℕ → Bool) (ops : List Op) : ∀ {c : Ctl}, ops.countP Op.isLoad = 0 → AtMostOne c.dev →
    AtMostOne (run fault c ops).dev := by
  induction ops with
  | nil => intro c _ h; exact h
  | cons op ops ih =>
    intro c hc h
    rw [List.countP_cons] at hc
    cases hl : op.isLoad with
    | true => simp [hl] at hc
    | false =>
      simp only [hl, Bool.false_eq_true, if_false, add_zero] at hc
      exact ih hc (((step_atMostOne fault op).1 hl).1 h)

theorem run_oneLoad (fault : ℕ → Bool) (ops : List Op) : ∀ {c : Ctl}, ops.countP Op.isLoad ≤ 1 → c.dev.seqs = [] →
    AtMostOne (run fault c ops).dev := by
  induction ops with
  | nil => intro c _ h; exact .inl h
  | cons op ops ih =>
    intro c hc h
    rw [List.countP_cons] at hc
    cases hl : op.isLoad with
    | true =>
      simp only [hl, if_true] at hc
      exact run_noLoad fault ops (by omega) ((step_atMostOne fault op).2 h)
    | false =>
      simp only [hl, Bool.false_eq_true, if_false, add_zero] at hc
      exact ih hc (((step_atMostOne fault op).1 hl).2 h)

theorem close_frees {fault : ℕ → Bool} {c : Ctl} (h : (step fault c .close).2 = .ok ()) (h1 : AtMostOne c.dev) :
    (step fault c .close).1.dev.seqs = [] := by
  simp only [step] at h ⊢
  rw [sendAll_ok _ _ h]
  rcases h1 with h1 | ⟨s, h1, h2⟩
  · simp only [closeCmds]
    split_ifs <;> simp [apply, h1]
  · simp [closeCmds, apply, h1, h2]

end Alp

namespace Lux

theorem sendAll_ok {fault : ℕ → Bool} {delay : ℕ → ℕ} (cmds : List Cmd) : ∀ (c : Ctl),
    (sendAll fault delay c cmds).2 = .ok () ∨ (sendAll fault delay c cmds).2 = .error .exception := by
  induction cmds with
  | nil => intro c; exact .inl rfl
  | cons cmd cmds ih =>
    intro c
    simp only [sendAll, send]
    by_cases hf : fault c.log.length = true
    · simp [hf]
    · simp only [Bool.not_eq_true] at hf
      simp only [hf, Bool.false_eq_true, if_false, if_true]
      exact ih _

theorem sendAll_init {fault : ℕ → Bool} {delay : ℕ → ℕ} (cmds : List Cmd) : ∀ (c : Ctl),
    (sendAll fault delay c cmds).1.initialized = c.initialized := by
  induction cmds with
  | nil => intro c; rfl
  | cons cmd cmds ih =>
    intro c
    simp only [sendAll, send]
    by_cases hf : fault c.log.length = true
    · simp [hf]
    · simp only [Bool.not_eq_true] at hf
      simp only [hf, Bool.false_eq_true, if_false, if_true]
      rw [ih]

theorem initialized_iff (fault : ℕ → Bool) (delay : ℕ → ℕ) (ops : List Op) : ∀ c : Ctl,
    (run fault delay c ops).initialized = true ↔ c.initialized = true ∨ InitCompleted fault delay c ops := by
  have hguard : ∀ (c : Ctl) (body : Ctl × Except PyErr Unit), body.1.initialized = c.initialized →
      (guarded c body).1.initialized = c.initialized := by
    intro c body hb
    unfold guarded
    split_ifs
    · exact hb
    · rfl
  have hstep : ∀ (c : Ctl) (op : Op), op ≠ .initialize → (step fault delay c op).1.initialized = c.initialized := by
    intro c op hop
    cases op with
    | «initialize» => exact absurd rfl hop
    | close => rfl
    | loadSingle img => exact hguard _ _ (sendAll_init _ _)
    | loadMultiple imgs => exact hguard _ _ (sendAll_init _ _)
    | queryNx => exact hguard _ _ rfl
    | queryNy => exact hguard _ _ rfl
    | numberImage => exact hguard _ _ rfl
    | fireTrigger => exact hguard _ _ (sendAll_init _ _)
    | loadSequence => exact hguard _ _ rfl
    | extTrigger => rfl
    | idle n => rfl
  have hinit : ∀ (c : Ctl), (step fault delay c .initialize).1.initialized = true ↔
      c.initialized = true ∨ (step fault delay c .initialize).2 = .ok () := by
    intro c
    simp only [step]
    rcases sendAll_ok (fault := fault) (delay := delay) initCmds c with h | h
    · simp [h]
    · simp [h, sendAll_init]
  induction ops with
  | nil => intro c; simp [run, InitCompleted]
  | cons op ops ih =>
    intro c
    rw [run, ih]
    by_cases hop : op = .initialize
    · subst hop
      rw [hinit]
      simp only [InitCompleted, true_and]
      tauto
    · rw [hstep c op hop]
      simp only [InitCompleted, hop, false_and, false_or]

/-- The device after successful vendor calls numbered from `k`. -/
def after (delay : ℕ → ℕ) : ℕ → List Cmd → Dev → Dev
  | _, [], d => d
  | k, cmd :: cmds, d => after delay (k + 1) cmds (ticks (delay k) (apply d cmd))

theorem sendAll_dev {fault : ℕ → Bool} {delay : ℕ → ℕ} (cmds : List Cmd) : ∀ (c : Ctl),
    (sendAll fault delay c cmds).2 = .ok () → (sendAll fault delay c cmds).1.dev = after delay c.log.length cmds c.dev := by
  induction cmds with
  | nil => intro c _; rfl
  | cons cmd cmds ih =>
    intro c h
    simp only [sendAll, send] at h ⊢
    by_cases hf : fault c.log.length = true
    · simp [hf] at h
    · simp only [Bool.not_eq_true] at hf
      simp only [hf, Bool.false_eq_true, if_false, if_true] at h ⊢
      rw [ih _ h]
      simp [after]

theorem after_append (delay : ℕ → ℕ) (a : List Cmd) : ∀ (k : ℕ) (b : List Cmd) (d : Dev),
    after delay k (a ++ b) d = after delay (k + a.length) b (after delay k a d) := by
  induction a with
  | nil => intro k b d; simp [after]
  | cons cmd a ih =>
    intro k b d
    simp only [List.cons_append, after, ih, List.length_cons]
    rw [show k + (a.length + 1) = k + 1 + a.length by omega]

/-- Anything preserved by an instruction and by each vendor call made is preserved, whatever fails. -/
theorem sendAll_inv {fault : ℕ → Bool} {delay : ℕ → ℕ} {P : Dev → Prop} (ht : ∀ d, P d → P (tick d)) (cmds : List Cmd)
    (ha : ∀ cmd ∈ cmds, ∀ d, P d → P (apply d cmd)) : ∀ (c : Ctl), P c.dev → P (sendAll fault delay c cmds).1.dev := by
  have hts : ∀ n d, P d → P (ticks n d) := by
    intro n
    induction n with
    | zero => intro d h; exact h
    | succ n ih => intro d h; exact ih _ (ht d h)
  induction cmds with
  | nil => intro c h; exact h
  | cons cmd cmds ih =>
    intro c h
    simp only [sendAll, send]
    by_cases hf : fault c.log.length = true
    · simp only [hf, if_true, Bool.false_eq_true, if_false]
      exact hts _ _ h
    · simp only [Bool.not_eq_true] at hf
      simp only [hf, Bool.false_eq_true, if_false, if_true]
      exact ih (fun cmd hc => ha cmd (by simp [hc])) _ (hts _ _ (ha cmd (by simp) _ h))

theorem ticks_inv {P : Dev → Prop} (ht : ∀ d, P d → P (tick d)) : ∀ (n : ℕ) (d : Dev), P d → P (ticks n d) := by
  intro n
  induction n with
  | zero => intro d h; exact h
  | succ n ih => intro d h; exact ih _ (ht d h)

theorem ticks_disabled {d : Dev} (h : d.enabled = false) : ∀ n, ticks n d = d := by
  have h1 : tick d = d := by simp [tick, h]
  intro n
  induction n with
  | zero => rfl
  | succ n ih => rw [ticks, h1, ih]

theorem ticks_add : ∀ (a b : ℕ) (d : Dev), ticks b (ticks a d) = ticks (a + b) d := by
  intro a
  induction a with
  | zero => intro b d; simp [ticks]
  | succ a ih => intro b d; rw [ticks, ih, show a + 1 + b = (a + b) + 1 by omega, ticks]

/-- Once the program is loaded it stays loaded. -/
theorem programmed_tick (d : Dev) (h : d.programmed = true) : (tick d).programmed = true := by
  unfold tick
  by_cases hc : d.enabled ∧ ¬ d.held ∧ d.programmed
  · rw [if_pos hc]
    cases d.pc with
    | next => simp only; split_ifs <;> exact h
    | _ => exact h
  · rw [if_neg hc]; exact h

theorem programmed_trigger (d : Dev) (h : d.programmed = true) : (trigger d).programmed = true := by
  unfold trigger
  split_ifs
  · exact h
  · exact h

theorem programmed_apply (cmd : Cmd) (d : Dev) (h : d.programmed = true) : (apply d cmd).programmed = true := by
  cases cmd with
  | seqReset on => cases on <;> exact h
  | softwareSync level =>
    cases level
    · exact h
    · simp only [apply]
      split_ifs
      · exact h
      · exact programmed_trigger _ h
  | loadSequence => rfl
  | _ => exact h

theorem programmed_step (fault : ℕ → Bool) (delay : ℕ → ℕ) (c : Ctl) (op : Op) (h : c.dev.programmed = true) :
    (step fault delay c op).1.dev.programmed = true := by
  have hs : ∀ cmds, (sendAll fault delay c cmds).1.dev.programmed = true := fun cmds =>
    sendAll_inv (P := fun d => d.programmed = true) programmed_tick cmds (fun cmd _ => programmed_apply cmd) c h
  have hg : ∀ body : Ctl × Except PyErr Unit, body.1.dev.programmed = true → (guarded c body).1.dev.programmed = true := by
    intro body hb
    unfold guarded
    split_ifs
    · exact hb
    · exact h
  cases op with
  | «initialize» =>
    simp only [step]
    split <;> exact hs _
  | close => exact h
  | loadSingle img => exact hg _ (hs _)
  | loadMultiple imgs => exact hg _ (hs _)
  | fireTrigger => exact hg _ (hs _)
  | queryNx => exact hg _ h
  | queryNy => exact hg _ h
  | numberImage => exact hg _ h
  | loadSequence => exact hg _ h
  | extTrigger => exact programmed_trigger _ h
  | idle n => exact ticks_inv (P := fun d => d.programmed = true) programmed_tick n _ h

theorem initialize_programmed {fault : ℕ → Bool} {delay : ℕ → ℕ} {c : Ctl}
    (h : (step fault delay c .initialize).2 = .ok ()) : (step fault delay c .initialize).1.dev.programmed = true := by
  simp only [step] at h ⊢
  rcases sendAll_ok (fault := fault) (delay := delay) initCmds c with h1 | h1
  · simp only [h1]
    rw [sendAll_dev _ _ h1, show initCmds = [Cmd.seqRun false, .seqReset true, .loadSequence] ++ [.setReg 1, .seqReset false] from rfl,
      after_append]
    simp only [after]
    have ht := fun n d => ticks_inv (P := fun d => d.programmed = true) programmed_tick n d
    refine ht _ _ (programmed_apply _ _ (ht _ _ (programmed_apply _ _ (ht _ _ rfl))))
  · simp [h1] at h

theorem run_programmed (fault : ℕ → Bool) (delay : ℕ → ℕ) (ops : List Op) : ∀ c : Ctl,
    (c.initialized = true → c.dev.programmed = true) → (run fault delay c ops).initialized = true →
    (run fault delay c ops).dev.programmed = true := by
  induction ops with
  | nil => intro c h h1; exact h h1
  | cons op ops ih =>
    intro c h h1
    refine ih _ (fun h2 => ?_) h1
    have h3 := initialized_iff fault delay [op] c
    simp only [run, InitCompleted, or_false] at h3
    rcases h3.1 h2 with h4 | ⟨rfl, h4⟩
    · exact programmed_step fault delay c op (h h4)
    · exact initialize_programmed h4

/-! ### The sequencer after a load -/

/-- The device is running the program on these images; `P` holds of what is displayed. -/
structure Playing (imgs : List Image) (P : Option Image → Prop) (d : Dev) : Prop where
  enabled : d.enabled = true
  held : d.held = false
  programmed : d.programmed = true
  reg0 : d.reg0 = imgs.length
  slots : ∀ i, i < imgs.length → d.slots i = imgs[i]?
  shown : P d.shown
  point : match d.pc with
    | .loadFirst => True
    | .show => d.inum < imgs.length ∧ d.memory = imgs[d.inum]?
    | .loadNext => d.inum < imgs.length ∧ d.shown = imgs[d.inum]?
    | .wait => d.inum < imgs.length ∧ d.memory = d.slots (d.inum + 1) ∧ d.shown = imgs[d.inum]?
    | .next => d.inum < imgs.length ∧ d.memory = d.slots (d.inum + 1) ∧ d.shown = imgs[d.inum]?

variable {imgs : List Image} {P : Option Image → Prop} {d : Dev}

theorem Playing.tick (h : Playing imgs P d) (hP : ∀ i, i < imgs.length → P imgs[i]?) (hn : imgs ≠ []) :
    Playing imgs P (tick d) := by
  have hpos : 0 < imgs.length := List.length_pos_iff.2 hn
  have hp := h.point
  unfold Lux.tick
  rw [if_pos ⟨h.enabled, by simp [h.held], h.programmed⟩]
  cases hpc : d.pc with
  | loadFirst => exact ⟨h.enabled, h.held, h.programmed, h.reg0, h.slots, h.shown, hpos, h.slots 0 hpos⟩
  | «show» =>
    rw [hpc] at hp
    exact ⟨h.enabled, h.held, h.programmed, h.reg0, h.slots, by simp only [hp.2]; exact hP _ hp.1, hp.1, hp.2⟩
  | loadNext =>
    rw [hpc] at hp
    exact ⟨h.enabled, h.held, h.programmed, h.reg0, h.slots, h.shown, hp.1, rfl, hp.2⟩
  | wait => exact h
  | next =>
    rw [hpc] at hp
    simp only
    split_ifs with hlt
    · rw [h.reg0] at hlt
      exact ⟨h.enabled, h.held, h.programmed, h.reg0, h.slots, h.shown, hlt, by simp only [hp.2.1]; exact h.slots _ hlt⟩
    · exact ⟨h.enabled, h.held, h.programmed, h.reg0, h.slots, h.shown, trivial⟩

theorem Playing.trigger (h : Playing imgs P d) : Playing imgs P (trigger d) := by
  unfold Lux.trigger
  split_ifs with hw
  · have hp := h.point
    rw [hw.2.2.2] at hp
    exact ⟨h.enabled, h.held, h.programmed, h.reg0, h.slots, h.shown, hp⟩
  · exact h

/-- The level of the software sync line plays no role by itself. -/
theorem Playing.sync (h : Playing imgs P d) (b : Bool) : Playing imgs P { d with sync := b } :=
  ⟨h.enabled, h.held, h.programmed, h.reg0, h.slots, h.shown, h.point⟩

theorem Playing.step {c : Ctl} (h : Playing imgs P c.dev) (hP : ∀ i, i < imgs.length → P imgs[i]?) (hn : imgs ≠ [])
    (fault : ℕ → Bool) (delay : ℕ → ℕ) (op : Op) (hop : op.Passive) : Playing imgs P (step fault delay c op).1.dev := by
  have ht : ∀ d, Playing imgs P d → Playing imgs P (Lux.tick d) := fun d hd => hd.tick hP hn
  have hg : ∀ body : Ctl × Except PyErr Unit, Playing imgs P body.1.dev → Playing imgs P (guarded c body).1.dev := by
    intro body hb
    unfold guarded
    split_ifs
    · exact hb
    · exact h
  cases op with
  | «initialize» => exact absurd hop (by simp [Op.Passive])
  | loadSingle img => exact absurd hop (by simp [Op.Passive])
  | loadMultiple imgs => exact absurd hop (by simp [Op.Passive])
  | close => exact h
  | fireTrigger =>
    refine hg _ (sendAll_inv ht _ (fun cmd hc d hd => ?_) c h)
    simp only [triggerCmds, List.mem_cons, List.not_mem_nil, or_false] at hc
    rcases hc with rfl | rfl
    · simp only [apply]
      split_ifs
      · exact hd
      · exact (hd.sync true).trigger
    · exact hd.sync false
  | queryNx => exact hg _ h
  | queryNy => exact hg _ h
  | numberImage => exact hg _ h
  | loadSequence => exact hg _ h
  | extTrigger => exact h.trigger
  | idle n => exact ticks_inv ht n _ h

theorem Playing.run (hP : ∀ i, i < imgs.length → P imgs[i]?) (hn : imgs ≠ []) (fault : ℕ → Bool) (delay : ℕ → ℕ)
    (ops : List Op) : ∀ {c : Ctl}, Playing imgs P c.dev → (∀ op ∈ ops, op.Passive) →
    Playing imgs P (run fault delay c ops).dev := by
  induction ops with
  | nil => intro c h _; exact h
  | cons op ops ih =>
    intro c h hop
    exact ih (h.step hP hn fault delay op (hop op (by simp))) (fun o ho => hop o (by simp [ho]))

/-- Waiting for a trigger with image number `m` displayed. -/
structure Waiting (imgs : List Image) (m : ℕ) (d : Dev) : Prop where
  playing : Playing imgs (fun _ => True) d
  pc : d.pc = .wait
  inum : d.inum = m

theorem Waiting.ticks {m : ℕ} (h : Waiting imgs m d) : ∀ n, Lux.ticks n d = d := by
  have h1 : Lux.tick d = d := by
    unfold Lux.tick
    rw [h.pc]
    split_ifs <;> rfl
  intro n
  induction n with
  | zero => rfl
  | succ n ih => rw [Lux.ticks, h1, ih]

theorem waiting_more {m n a : ℕ} (h : Waiting imgs m (Lux.ticks a d)) (hn : a ≤ n) : Waiting imgs m (Lux.ticks n d) := by
  obtain ⟨b, rfl⟩ := Nat.exists_eq_add_of_le hn
  rw [← ticks_add, h.ticks b]
  exact h

/-- From the start of the program three instructions display the first image. -/
theorem waiting_start (h : Playing imgs (fun _ => True) d) (hn : imgs ≠ []) (hpc : d.pc = .loadFirst) {n : ℕ} (h3 : 3 ≤ n) :
    Waiting imgs 0 (Lux.ticks n d) := by
  refine waiting_more (a := 3) ?_ h3
  have hp := ticks_inv (P := Playing imgs (fun _ => True)) (fun d hd => hd.tick (fun _ _ => trivial) hn) 3 d h
  refine ⟨hp, ?_, ?_⟩
  · simp [Lux.ticks, Lux.tick, hpc, h.enabled, h.held, h.programmed]
  · simp [Lux.ticks, Lux.tick, hpc, h.enabled, h.held, h.programmed]

/-- A trigger and four instructions display the next image, after the last one the first. -/
theorem waiting_next {m : ℕ} (h : Waiting imgs m d) (hn : imgs ≠ []) {n : ℕ} (h4 : 4 ≤ n) :
    Waiting imgs ((m + 1) % imgs.length) (Lux.ticks n (Lux.trigger d)) := by
  refine waiting_more (a := 4) ?_ h4
  have hp := ticks_inv (P := Playing imgs (fun _ => True)) (fun d hd => hd.tick (fun _ _ => trivial) hn) 4 _ h.playing.trigger
  have hm : m < imgs.length := by
    have := h.playing.point
    rw [h.pc] at this
    rw [← h.inum]
    exact this.1
  obtain ⟨he, hh, hg, hr⟩ := h.playing
  have ht : Lux.trigger d = { d with pc := .next } := by
    unfold Lux.trigger
    rw [if_pos ⟨he, by simp [hh], hg, h.pc⟩]
  have hi := h.inum
  rw [ht] at hp ⊢
  by_cases hl : m + 1 < imgs.length
  · rw [Nat.mod_eq_of_lt hl]
    refine ⟨hp, ?_, ?_⟩
    · simp [Lux.ticks, Lux.tick, he, hh, hg, hr, hi, hl]
    · simp [Lux.ticks, Lux.tick, he, hh, hg, hr, hi, hl]
  · rw [show m + 1 = imgs.length by omega, Nat.mod_self]
    refine ⟨hp, ?_, ?_⟩
    · simp [Lux.ticks, Lux.tick, he, hh, hg, hr, hi, hl]
    · simp [Lux.ticks, Lux.tick, he, hh, hg, hr, hi, hl]

/-- The `load_image` calls of a stopped sequencer fill the slots. -/
theorem after_loadImages (delay : ℕ → ℕ) (imgs : List Image) : ∀ (k j : ℕ) (d : Dev), d.enabled = false →
    ∃ slots, after delay k (loadImages j imgs) d = { d with slots := slots } ∧
      (∀ i, i < imgs.length → slots (j + i) = imgs[i]?) ∧ (∀ i, i < j → slots i = d.slots i) := by
  induction imgs with
  | nil => intro k j d _; exact ⟨d.slots, rfl, by simp, fun _ _ => rfl⟩
  | cons img imgs ih =>
    intro k j d h
    simp only [loadImages, after, apply]
    rw [ticks_disabled (by exact h)]
    obtain ⟨slots, h1, h2, h3⟩ := ih (k + 1) (j + 1) { d with slots := Function.update d.slots j (some img) } h
    refine ⟨slots, h1, ?_, ?_⟩
    · intro i hi
      cases i with
      | zero =>
        rw [h3 _ (by omega)]
        simp
      | succ i =>
        rw [show j + (i + 1) = j + 1 + i by omega, h2 i (by simpa using hi)]
        simp
    · intro i hi
      rw [h3 i (by omega)]
      simp [Function.update_of_ne (show i ≠ j by omega)]

theorem loadMultiple_single (img : Image) : loadMultipleCmds [img] = loadSingleCmds img := rfl

/-- The state in which a successful load leaves the device, before the sequencer runs on. -/
theorem after_load (delay : ℕ → ℕ) (k : ℕ) (imgs : List Image) (hn : imgs ≠ []) (d : Dev) (hp : d.programmed = true) :
    ∃ d' n, after delay k (loadMultipleCmds imgs) d = ticks n d' ∧ Playing imgs (fun s => s = d.shown) d' ∧ d'.pc = .loadFirst := by
  have e1 : after delay k [.seqRun false, .seqReset true, .setReg imgs.length, .seqReset false] d =
      { d with enabled := false, held := false, pc := .loadFirst, inum := 0, reg0 := imgs.length } := by
    have t1 : ∀ n, ticks n { d with enabled := false } = { d with enabled := false } := ticks_disabled rfl
    simp only [after, apply, t1]
    have t2 : ∀ n, ticks n { d with enabled := false, held := true, pc := .loadFirst, inum := 0 } = _ := ticks_disabled rfl
    simp only [t2]
    have t3 : ∀ n, ticks n { d with enabled := false, held := true, pc := .loadFirst, inum := 0, reg0 := imgs.length } = _ :=
      ticks_disabled rfl
    simp only [t3]
    exact ticks_disabled rfl _
  rw [loadMultipleCmds, after_append, after_append, e1]
  obtain ⟨slots, h1, h2, _⟩ := after_loadImages delay imgs
    (k + [Cmd.seqRun false, .seqReset true, .setReg imgs.length, .seqReset false].length) 0
    { d with enabled := false, held := false, pc := .loadFirst, inum := 0, reg0 := imgs.length } rfl
  rw [h1]
  simp only [after, apply]
  refine ⟨_, _, rfl, ?_, rfl⟩
  exact ⟨rfl, rfl, hp, rfl, fun i hi => by simpa using h2 i hi, rfl, trivial⟩

/-- `load_multiple(images)` or `load_single(image)` -/
theorem load_playing {fault : ℕ → Bool} {delay : ℕ → ℕ} {c : Ctl} (hinv : c.initialized = true → c.dev.programmed = true)
    {op : Op} {imgs : List Image} (hop : op = .loadMultiple imgs ∨ ∃ img, imgs = [img] ∧ op = .loadSingle img)
    (hn : imgs ≠ []) (hok : (step fault delay c op).2 = .ok ()) :
    ∃ d' n, (step fault delay c op).1.dev = ticks n d' ∧ Playing imgs (fun s => s = c.dev.shown) d' ∧ d'.pc = .loadFirst := by
  have e : step fault delay c op = guarded c (sendAll fault delay c (loadMultipleCmds imgs)) := by
    rcases hop with rfl | ⟨img, rfl, rfl⟩
    · rfl
    · rfl
  rw [e] at hok ⊢
  unfold guarded at hok ⊢
  by_cases hi : c.initialized = true
  · simp only [hi, if_true] at hok ⊢
    rw [sendAll_dev _ _ hok]
    exact after_load delay _ imgs hn _ (hinv hi)
  · simp [hi] at hok

theorem Playing.mono {Q : Option Image → Prop} (h : Playing imgs P d) (hPQ : ∀ s, P s → Q s) : Playing imgs Q d :=
  ⟨h.enabled, h.held, h.programmed, h.reg0, h.slots, hPQ _ h.shown, h.point⟩

theorem sync_tick (d : Dev) : (Lux.tick d).sync = d.sync := by
  rcases d with ⟨s, r, e, hd, pr, pc, i, m, sh, sy⟩
  unfold Lux.tick
  by_cases hc : e ∧ ¬ hd ∧ pr
  · rw [if_pos hc]
    cases pc with
    | next => simp only; split_ifs <;> rfl
    | _ => rfl
  · rw [if_neg hc]

theorem sync_ticks (n : ℕ) (d : Dev) : (Lux.ticks n d).sync = d.sync :=
  ticks_inv (P := fun e => e.sync = d.sync) (fun e he => (sync_tick e).trans he) n d rfl

theorem sync_trigger (d : Dev) : (Lux.trigger d).sync = d.sync := by
  unfold Lux.trigger
  split_ifs <;> rfl

/-- Lowering the sync line changes nothing else, now or later. -/
theorem tick_sync (d : Dev) (b : Bool) : Lux.tick { d with sync := b } = { Lux.tick d with sync := b } := by
  rcases d with ⟨s, r, e, hd, pr, pc, i, m, sh, sy⟩
  unfold Lux.tick
  by_cases hc : e ∧ ¬ hd ∧ pr
  · rw [if_pos hc, if_pos hc]
    cases pc with
    | next => simp only; split_ifs <;> rfl
    | _ => rfl
  · rw [if_neg hc, if_neg hc]

theorem ticks_sync (b : Bool) : ∀ (n : ℕ) (d : Dev), Lux.ticks n { d with sync := b } = { Lux.ticks n d with sync := b } := by
  intro n
  induction n with
  | zero => intro d; rfl
  | succ n ih => intro d; rw [Lux.ticks, tick_sync, ih, Lux.ticks]

theorem trigger_sync (d : Dev) (b : Bool) : Lux.trigger { d with sync := b } = { Lux.trigger d with sync := b } := by
  unfold Lux.trigger
  by_cases hc : d.enabled ∧ ¬ d.held ∧ d.programmed ∧ d.pc = .wait
  · rw [if_pos hc, if_pos hc]
  · rw [if_neg hc, if_neg hc]

/-- A software trigger that returns, on a low sync line: a trigger, and the line is low again. -/
theorem fireTrigger_ok {fault : ℕ → Bool} {delay : ℕ → ℕ} {c : Ctl} (hs : c.dev.sync = false)
    (hok : (Lux.step fault delay c .fireTrigger).2 = .ok ()) :
    ∃ a, (Lux.step fault delay c .fireTrigger).1.dev = Lux.ticks a (Lux.trigger c.dev) := by
  simp only [Lux.step, guarded] at hok ⊢
  by_cases hi : c.initialized = true
  · simp only [hi, if_true] at hok ⊢
    rw [sendAll_dev _ _ hok]
    simp only [triggerCmds, after, apply, hs, Bool.false_eq_true, if_false]
    refine ⟨delay c.log.length + delay (c.log.length + 1), ?_⟩
    have h1 : (Lux.ticks (delay c.log.length) (Lux.trigger c.dev)).sync = false := by
      rw [sync_ticks, sync_trigger, hs]
    have h2 : ∀ e : Dev, e.sync = false → ({ e with sync := false } : Dev) = e := fun e he => by rw [← he]
    rw [trigger_sync, ticks_sync true, ← ticks_add]
    exact congrArg _ (h2 _ h1)
  · simp [hi] at hok

theorem Triggered.waiting {fault : ℕ → Bool} {delay : ℕ → ℕ} (hn : imgs ≠ []) {k : ℕ} {c c' : Ctl}
    (h : Triggered fault delay k c c') (hw : Waiting imgs 0 c.dev) (hs : c.dev.sync = false) :
    Waiting imgs (k % imgs.length) c'.dev ∧ c'.dev.sync = false := by
  induction h with
  | none c => exact ⟨by simpa using hw, hs⟩
  | more h op hop hok n hn4 ih =>
    rename_i k c c'
    obtain ⟨ih, ihs⟩ := ih hw hs
    have key : ∃ a, (Lux.step fault delay c' op).1.dev = Lux.ticks a (Lux.trigger c'.dev) := by
      rcases hop with rfl | rfl
      · exact fireTrigger_ok ihs hok
      · exact ⟨0, rfl⟩
    obtain ⟨a, ha⟩ := key
    show Waiting imgs _ (Lux.ticks n (Lux.step fault delay c' op).1.dev) ∧
      (Lux.ticks n (Lux.step fault delay c' op).1.dev).sync = false
    rw [ha, ticks_add]
    refine ⟨?_, by rw [sync_ticks, sync_trigger, ihs]⟩
    have := waiting_next ih hn (n := a + n) (by omega)
    rwa [Nat.mod_add_mod] at this

/-- Only software triggers touch the sync line. -/
theorem sync_step (fault : ℕ → Bool) (delay : ℕ → ℕ) (c : Ctl) (op : Op) (hop : op ≠ .fireTrigger) :
    (Lux.step fault delay c op).1.dev.sync = c.dev.sync := by
  have hs : ∀ cmds : List Cmd, (∀ l, Cmd.softwareSync l ∉ cmds) → (sendAll fault delay c cmds).1.dev.sync = c.dev.sync := by
    intro cmds hc
    refine sendAll_inv (P := fun d => d.sync = c.dev.sync) (fun d hd => (sync_tick d).trans hd) cmds (fun cmd hm d hd => ?_) c rfl
    cases cmd with
    | softwareSync l => exact absurd hm (hc l)
    | seqReset on => cases on <;> exact hd
    | _ => exact hd
  have hg : ∀ body : Ctl × Except PyErr Unit, body.1.dev.sync = c.dev.sync → (guarded c body).1.dev.sync = c.dev.sync := by
    intro body hb
    unfold guarded
    split_ifs
    · exact hb
    · rfl
  have hl : ∀ (imgs : List Image) (k : ℕ) (l : Bool), Cmd.softwareSync l ∉ loadImages k imgs := by
    intro imgs
    induction imgs with
    | nil => intro k l; simp [loadImages]
    | cons img imgs ih => intro k l; simp [loadImages, ih]
  cases op with
  | «initialize» =>
    simp only [Lux.step]
    split <;> exact hs _ (by simp [initCmds])
  | close => rfl
  | loadSingle img => exact hg _ (hs _ (by simp [loadSingleCmds]))
  | loadMultiple imgs => exact hg _ (hs _ (by simp [loadMultipleCmds, hl]))
  | fireTrigger => exact absurd rfl hop
  | queryNx => exact hg _ rfl
  | queryNy => exact hg _ rfl
  | numberImage => exact hg _ rfl
  | loadSequence => exact hg _ rfl
  | extTrigger => exact sync_trigger _
  | idle n => exact sync_ticks n _

/-- If no software trigger has failed half way the sync line is low. -/
theorem sync_run (fault : ℕ → Bool) (delay : ℕ → ℕ) (ops : List Op) : ∀ c : Ctl, c.dev.sync = false →
    TriggersComplete fault delay c ops → (Lux.run fault delay c ops).dev.sync = false := by
  induction ops with
  | nil => intro c h _; exact h
  | cons op ops ih =>
    intro c h ht
    refine ih _ ?_ ht.2
    by_cases hop : op = .fireTrigger
    · subst hop
      by_cases hi : c.initialized = true
      · obtain ⟨a, ha⟩ := fireTrigger_ok h (ht.1 rfl hi)
        rw [ha, sync_ticks, sync_trigger, h]
      · simp [Lux.step, guarded, hi, h]
    · rw [sync_step fault delay c op hop, h]

theorem Waiting.shown {m : ℕ} (h : Waiting imgs m d) : d.shown = imgs[m]? := by
  have := h.playing.point
  rw [h.pc] at this
  rw [← h.inum]
  exact this.2.2

end Lux

end PySLM2.Controller
