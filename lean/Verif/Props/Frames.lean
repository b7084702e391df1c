import Verif.Model.Frames
import Verif.Props.Controller
import Verif.Props.ControllerFaults

/-!
# C118: from arrays of mirrors to the device
-/

namespace PySLM2.Controller

theorem flatMap_const {α : Type} (c : ℕ) (f : ℕ → ℕ → α) : ∀ (l : List ℕ) (i : ℕ) (hi : i < l.length) (j : ℕ), j < c →
    (l.flatMap fun i => (List.range c).map fun j => f i j)[i * c + j]? = some (f l[i] j) := by
  intro l
  induction l with
  | nil => intro i hi; simp at hi
  | cons a l ih =>
    intro i hi j hj
    rw [List.flatMap_cons]
    cases i with
    | zero =>
      rw [List.getElem?_append_left (by simpa using hj)]
      simp [hj]
    | succ i =>
      rw [List.getElem?_append_right (by simp; nlinarith)]
      have e : (i + 1) * c + j - (List.map (fun j => f a j) (List.range c)).length = i * c + j := by
        simp; rw [add_mul, one_mul]; omega
      rw [e, ih i (by simpa using hi) j hj]
      simp

theorem ravel_get {α : Type} {t : Tensor α} {r c : ℕ} (h : t.shape = .mat r c) {i j : ℕ} (hi : i < r) (hj : j < c) :
    (ravel t)[i * c + j]? = some (t.get i j) := by
  unfold ravel
  rw [h]
  simp only
  rw [flatMap_const c t.get (List.range r) i (by simpa using hi) j hj]
  simp

theorem ravel_length {α : Type} {t : Tensor α} {r c : ℕ} (h : t.shape = .mat r c) : (ravel t).length = r * c := by
  unfold ravel
  rw [h]
  simp

theorem ravel_stack {α : Type} {a b s : Tensor α} {r r' c : ℕ} (ha : a.shape = .mat r c) (hb : b.shape = .mat r' c)
    (hs : stack a b = .ok s) : s.shape = .mat (r + r') c ∧ ravel s = ravel a ++ ravel b := by
  unfold stack at hs
  rw [ha, hb] at hs
  simp only [if_true] at hs
  obtain rfl := Except.ok.inj hs
  refine ⟨rfl, ?_⟩
  unfold ravel
  rw [ha, hb]
  simp only
  rw [List.range_add, List.flatMap_append, List.flatMap_map]
  congr 1
  · rw [List.flatMap_def, List.flatMap_def]
    congr 1
    refine List.map_congr_left fun i hi => ?_
    simp only [List.mem_range] at hi
    simp [hi]
  · simp

/-- Arrays of the same size are put together frame by frame. -/
theorem concatenate_ok {α : Type} {r c : ℕ} : ∀ {ts : List (Tensor α)}, ts ≠ [] → (∀ t ∈ ts, t.shape = .mat r c) →
    ∃ t, concatenate ts = .ok t ∧ t.shape = .mat (ts.length * r) c ∧ ravel t = (ts.map ravel).flatten
  | [], h, _ => absurd rfl h
  | [t], _, h => ⟨t, by simp [concatenate, h t], by rw [h t (by simp)]; simp, by simp⟩
  | t :: t' :: ts, _, h => by
    obtain ⟨b, h1, h2, h3⟩ := concatenate_ok (ts := t' :: ts) (by simp) fun x hx => h x (List.mem_cons_of_mem _ hx)
    have ht := h t (by simp)
    obtain ⟨s, hs⟩ : ∃ s, stack t b = .ok s := by unfold stack; rw [ht, h2]; simp
    obtain ⟨e1, e2⟩ := ravel_stack ht h2 hs
    refine ⟨s, ?_, ?_, ?_⟩
    · rw [concatenate, h1]
      · exact hs
      · simp
    · rw [e1]; congr 1; simp only [List.length_cons]; ring
    · rw [e2, h3]; simp

/-- Arrays of different widths are refused. -/
theorem concatenate_error {α : Type} : ∀ {ts : List (Tensor α)} {t : Tensor α}, concatenate ts = .ok t →
    ts ≠ [] ∧ ∃ c, ∀ x ∈ ts, ∃ r, x.shape = .mat r c := by
  suffices H : ∀ {ts : List (Tensor α)} {t : Tensor α}, concatenate ts = .ok t →
      ts ≠ [] ∧ ∃ c, (∃ r, t.shape = .mat r c) ∧ ∀ x ∈ ts, ∃ r, x.shape = .mat r c by
    intro ts t h
    obtain ⟨h1, c, -, h2⟩ := H h
    exact ⟨h1, c, h2⟩
  intro ts
  induction ts with
  | nil => intro t h; cases h
  | cons a ts ih =>
    intro t h
    refine ⟨by simp, ?_⟩
    cases ts with
    | nil =>
      unfold concatenate at h
      split at h
      · cases h
      · rename_i r c hs
        obtain rfl := Except.ok.inj h
        exact ⟨c, ⟨r, hs⟩, by simp [hs]⟩
    | cons b ts =>
      rw [concatenate] at h
      · split at h
        · rename_i s hs
          obtain ⟨-, c, ⟨r, hr⟩, hx⟩ := ih hs
          unfold stack at h
          rw [hr] at h
          split at h
          · rename_i r1 c1 r2 c2 e1 e2
            obtain ⟨rfl, rfl⟩ : r = r2 ∧ c = c2 := by simpa using e2
            split_ifs at h with hc
            subst hc
            obtain rfl := Except.ok.inj h
            refine ⟨c1, ⟨_, rfl⟩, fun x hx' => ?_⟩
            rcases List.mem_cons.mp hx' with rfl | hx'
            · exact ⟨r1, e1⟩
            · exact hx x hx'
          · cases h
        · cases h
      · simp

/-! ## The ALP controller -/

/-- The controllers that can be reached from a new one by public calls, failing ones included. -/
inductive Alp.Reached (fault : ℕ → Bool) : Alp.Ctl → Prop
  | new (invert : Bool) : Reached fault (Alp.Ctl.new invert)
  | step {c : Alp.Ctl} (h : Reached fault c) (op : Alp.Op) : Reached fault (Alp.step fault c op).1
  | arrays {c : Alp.Ctl} (h : Reached fault c) (ts : List (Tensor Bool)) : Reached fault (Alp.loadArrays fault c ts).1

theorem Alp.sendAll_append {fault : ℕ → Bool} (a : List Cmd) : ∀ (c : Ctl) (b : List Cmd), sendAll fault c (a ++ b) =
    match (sendAll fault c a).2 with
    | .error e => ((sendAll fault c a).1, .error e)
    | .ok _ => sendAll fault (sendAll fault c a).1 b := by
  induction a with
  | nil => intro c b; rfl
  | cons x a ih =>
    intro c b
    simp only [List.cons_append, sendAll]
    split_ifs
    · exact ih _ b
    · rfl

/-- Arrays of the same size: the lists of their mirrors. -/
theorem Alp.loadArrays_eq {fault : ℕ → Bool} {c : Ctl} {ts : List (Tensor Bool)} {Ny Nx : ℕ} (hn : ts ≠ [])
    (hs : ∀ t ∈ ts, t.shape = .mat Ny Nx) : loadArrays fault c ts = step fault c (.loadMultiple (ts.map ravel)) := by
  obtain ⟨t, h1, -, h3⟩ := concatenate_ok hn hs
  unfold loadArrays
  rw [h1]
  simp only [step]
  rw [if_neg (by simpa using hn)]
  congr 1
  rw [show loadMultipleCmds (ts.map ravel) = [.halt, .projSlave, .triggerRising, .seqAlloc ts.length, .seqControl] ++
    [.seqPut (toBytes (ravel t)), .seqInquire, .setTiming, .run] by simp [loadMultipleCmds, h3], sendAll_append]
  generalize sendAll fault c [.halt, .projSlave, .triggerRising, .seqAlloc ts.length, .seqControl] = r
  rcases r with ⟨_, _ | _⟩ <;> rfl

theorem Alp.Reached.fresh {fault : ℕ → Bool} {c : Ctl} (h : Reached fault c) : Fresh c.dev := by
  induction h with
  | new invert => exact fresh_new invert
  | step h op ih =>
    obtain ⟨_, cmds, hc⟩ := step_dev fault _ op
    rw [hc]
    exact fresh_foldl cmds ih
  | @arrays c h ts ih =>
    have hsend : ∀ (c : Ctl) (cmds : List Cmd), Fresh c.dev → Fresh (sendAll fault c cmds).1.dev := fun c cmds hf => by
      obtain ⟨-, -, pre, post, -, h4⟩ := sendAll_prefix (fault := fault) cmds c
      rw [h4]
      exact fresh_foldl _ hf
    unfold loadArrays guarded
    split_ifs
    · simp only
      split
      · exact hsend _ _ ih
      · split
        · exact hsend _ _ ih
        · exact hsend _ _ (hsend _ _ ih)
    · exact ih

/-- **C118.** After a successful `load_single(dmd_state)` of an array of `Ny` rows and `Nx` columns the ALP device projects one
picture, in which the mirror in row `i` and column `j`, at position `i Nx + j`, has the full level if it is on in the array and
the level 0 otherwise. -/
theorem C118_alp_single {fault : ℕ → Bool} {c : Alp.Ctl} (hc : Alp.Reached fault c) {t : Tensor Bool} {Ny Nx : ℕ}
    (hs : t.shape = .mat Ny Nx) (hok : (Alp.loadArray fault c t).2 = .ok ()) :
    ∃ data, (Alp.loadArray fault c t).1.dev.projecting = some (1, data) ∧ data.length = Ny * Nx ∧
      ∀ i < Ny, ∀ j < Nx, data[i * Nx + j]? = some (if t.get i j then 255 else 0) := by
  refine ⟨Alp.toBytes (ravel t), ?_, by simp [Alp.toBytes, ravel_length hs], fun i hi j hj => ?_⟩
  · unfold Alp.loadArray
    rw [(Alp.loadSingle_ok hok).2]
    exact Alp.projecting_single hc.fresh _
  · rw [Alp.toBytes, List.getElem?_map, ravel_get hs hi hj]
    rfl

/-- **C118** for `load_multiple(dmd_states)`: picture `p` is array `p`, mirror by mirror. -/
theorem C118_alp_multiple {fault : ℕ → Bool} {c : Alp.Ctl} (hc : Alp.Reached fault c) {ts : List (Tensor Bool)} {Ny Nx : ℕ}
    (hs : ∀ t ∈ ts, t.shape = .mat Ny Nx) (hok : (Alp.loadArrays fault c ts).2 = .ok ()) :
    ∃ data, (Alp.loadArrays fault c ts).1.dev.projecting = some (ts.length, data) ∧ data.length = ts.length * (Ny * Nx) ∧
      ∀ p (hp : p < ts.length), ∀ i < Ny, ∀ j < Nx,
        data[(p * Ny + i) * Nx + j]? = some (if ts[p].get i j then 255 else 0) := by
  have hn : ts ≠ [] := fun h0 => by
    subst h0
    unfold Alp.loadArrays Alp.guarded at hok
    split_ifs at hok
    simp only [concatenate] at hok
    split at hok <;> cases hok
  obtain ⟨t, h1, h2, h3⟩ := concatenate_ok hn hs
  refine ⟨Alp.toBytes (ravel t), ?_, by simp only [Alp.toBytes, List.length_map, ravel_length h2]; ring, fun p hp i hi j hj => ?_⟩
  · rw [Alp.loadArrays_eq hn hs] at hok ⊢
    rw [(Alp.loadMultiple_ok hok).2.2, h3]
    have := Alp.projecting_multiple hc.fresh (ts.map ravel)
    rwa [List.length_map] at this
  · have hf := flatten_get (s := Ny * Nx) (ts.map ravel)
      (fun img him => by obtain ⟨x, hx, rfl⟩ := List.mem_map.mp him; exact ravel_length (hs x hx)) p (by simpa using hp)
      (i * Nx + j) (by nlinarith)
    rw [Alp.toBytes, List.getElem?_map, h3, show (p * Ny + i) * Nx + j = p * (Ny * Nx) + (i * Nx + j) by ring, hf, List.getElem_map,
      ravel_get (hs _ (List.getElem_mem hp)) hi hj]
    rfl

/-- **C118**, arrays that do not fit together: no arrays, or arrays of different widths, are refused by `load_multiple`, and
afterwards the device projects nothing, unless already its first vendor call (or the check of the initialization) failed and
nothing was changed. -/
theorem C118_alp_refused {fault : ℕ → Bool} {c : Alp.Ctl} {ts : List (Tensor Bool)}
    (hbad : ¬∃ w, ts ≠ [] ∧ ∀ t ∈ ts, ∃ r, t.shape = .mat r w) :
    (Alp.loadArrays fault c ts).2 ≠ .ok () ∧
      ((Alp.loadArrays fault c ts).1.dev = c.dev ∨ (Alp.loadArrays fault c ts).1.dev.projecting = none) := by
  have herr : ∃ e, concatenate ts = .error e := by
    cases h : concatenate ts with
    | error e => exact ⟨e, rfl⟩
    | ok t =>
      obtain ⟨h1, w, h2⟩ := concatenate_error h
      exact absurd ⟨w, h1, h2⟩ hbad
  obtain ⟨e, he⟩ := herr
  have hp : ∀ d : Alp.Dev, d.running = none → d.projecting = none := fun d h => by simp [Alp.Dev.projecting, h]
  unfold Alp.loadArrays Alp.guarded
  rw [he]
  split_ifs
  swap
  · exact ⟨by simp, .inl rfl⟩
  simp only
  rcases Alp.sendAll_result (fault := fault) [.halt, .projSlave, .triggerRising, .seqAlloc ts.length, .seqControl] c with h1 | h1
  · rw [h1]
    refine ⟨by simp, .inr ?_⟩
    simp only
    rw [Alp.sendAll_ok _ _ h1]
    exact hp _ rfl
  · have hd := Alp.sendAll_dark (fault := fault) (c := c) (mid := [.projSlave, .triggerRising, .seqAlloc ts.length, .seqControl])
      (last := []) (by simp) (.inl rfl) (by rw [List.append_nil, h1]; simp)
    rw [List.append_nil] at hd
    rw [h1]
    refine ⟨by simp, ?_⟩
    rcases hd with ⟨h4, -⟩ | h4
    · exact .inl h4
    · exact .inr (hp _ h4)

/-! ## The Luxbeam controller -/

/-- **C118** for the Luxbeam controller: after a successful `load_multiple(dmd_states)` and `k` triggers the display shows
array `k` (cyclically), mirror by mirror. -/
theorem C118_lux {fault : ℕ → Bool} {delay : ℕ → ℕ} {ops : List Lux.Op} {ts : List (Tensor Bool)} (hn : ts ≠ []) {Ny Nx : ℕ}
    (hs : ∀ t ∈ ts, t.shape = .mat Ny Nx)
    (hok : (Lux.loadArrays fault delay (Lux.run fault delay Lux.Ctl.new ops) ts).2 = .ok ())
    (htrig : Lux.TriggersComplete fault delay Lux.Ctl.new ops) {n : ℕ} (h3 : 3 ≤ n) {k : ℕ} {c : Lux.Ctl}
    (hc : Lux.Triggered fault delay k
      (Lux.step fault delay (Lux.loadArrays fault delay (Lux.run fault delay Lux.Ctl.new ops) ts).1 (.idle n)).1 c) :
    ∃ img, c.dev.shown = some img ∧ img.length = Ny * Nx ∧ ∀ i < Ny, ∀ j < Nx,
      img[i * Nx + j]? = some ((ts[k % ts.length]'(Nat.mod_lt _ (List.length_pos_iff.2 hn))).get i j) := by
  have h := C78_cyclic fault delay ops (ts.map ravel) (by simpa using hn) (.loadMultiple (ts.map ravel)) (.inl rfl) hok htrig n h3 k c hc
  have hk : k % ts.length < ts.length := Nat.mod_lt _ (List.length_pos_iff.2 hn)
  have hsh := hs _ (List.getElem_mem hk)
  refine ⟨ravel ts[k % ts.length], ?_, ravel_length hsh, fun i hi j hj => ravel_get hsh hi hj⟩
  rw [h]
  simp

/-! ## Number images -/

/-- **C118**, `number_image`: on an initialized controller of a device with `w` columns and `h` rows, if it returns, it returns an
array of the shape of the device (so that it can be loaded), and nothing changes on the device; before the initialization it is
refused. -/
theorem C118_number_image (glyphs : ℤ → ℕ → ℤ → ℤ → Bool) (w h : ℕ) (fault : ℕ → Bool) (c : Alp.Ctl) (n : ℤ) :
    (∀ t, (Alp.numberImageOf glyphs w h fault c n).2 = .ok t → c.initialized = true ∧ t.shape = .mat h w ∧
      ∀ i < h, ∀ j < w, t.get i j = glyphs n (h / 2) ((i : ℤ) - (h / 4 : ℕ)) j) ∧
    (Alp.numberImageOf glyphs w h fault c n).1.dev = c.dev ∧
    ∀ (l : Lux.Ctl) t, Lux.numberImageOf glyphs w h l n = .ok t → l.initialized = true ∧ t.shape = .mat h w ∧
      ∀ i < h, ∀ j < w, t.get i j = glyphs n (h / 2) ((i : ℤ) - (h / 4 : ℕ)) j := by
  have hnum : ∀ t, numberImage glyphs n w h = .ok t → t.shape = .mat h w ∧
      ∀ i < h, ∀ j < w, t.get i j = glyphs n (h / 2) ((i : ℤ) - (h / 4 : ℕ)) j := fun t ht => by
    unfold numberImage at ht
    split_ifs at ht
    obtain rfl := Except.ok.inj ht
    exact ⟨rfl, fun _ _ _ _ => rfl⟩
  have hdev : (Alp.sendAll fault c [.inquireWidth, .inquireHeight]).1.dev = c.dev := by
    simp only [Alp.sendAll, Alp.send, Alp.apply]
    split_ifs <;> rfl
  refine ⟨fun t ht => ?_, ?_, fun l t ht => ?_⟩
  · unfold Alp.numberImageOf at ht
    split_ifs at ht with hi
    · simp only at ht
      split at ht
      · cases ht
      · exact ⟨hi, hnum t ht⟩
  · unfold Alp.numberImageOf
    split_ifs
    · simp only
      split <;> exact hdev
    · rfl
  · unfold Lux.numberImageOf at ht
    split_ifs at ht with hi
    exact ⟨hi, hnum t ht⟩

/-! ## Instances -/

/-- Two arrays of 2 rows and 3 columns. -/
def exFrames : List (Tensor Bool) := [⟨.mat 2 3, fun i j => decide (i = j)⟩, ⟨.mat 2 3, fun i j => decide (j = 2 * i)⟩]

example : (∀ t ∈ exFrames, t.shape = .mat 2 3) ∧
    Alp.Reached noFault (Alp.step noFault (Alp.Ctl.new true) .initialize).1 ∧
    (Alp.loadArrays noFault (Alp.step noFault (Alp.Ctl.new true) .initialize).1 exFrames).2 = .ok () ∧
    (Alp.loadArrays noFault (Alp.step noFault (Alp.Ctl.new true) .initialize).1 exFrames).1.dev.projecting =
      some (2, [255, 0, 0, 0, 255, 0, 255, 0, 0, 0, 0, 255]) :=
  ⟨by simp [exFrames], .step (.new _) _, rfl, rfl⟩

/-- Arrays of different widths. -/
example : ¬∃ w, ([⟨.mat 2 3, fun _ _ => true⟩, ⟨.mat 2 4, fun _ _ => true⟩] : List (Tensor Bool)) ≠ [] ∧
    ∀ t ∈ ([⟨.mat 2 3, fun _ _ => true⟩, ⟨.mat 2 4, fun _ _ => true⟩] : List (Tensor Bool)), ∃ r, t.shape = .mat r w := by
  rintro ⟨w, -, h⟩
  obtain ⟨r, hr⟩ := h ⟨.mat 2 3, fun _ _ => true⟩ (by simp)
  obtain ⟨r', hr'⟩ := h ⟨.mat 2 4, fun _ _ => true⟩ (by simp)
  simp only [Shape.mat.injEq] at hr hr'
  omega

example : (Lux.loadArrays noFault (fun _ => 0) (Lux.run noFault (fun _ => 0) Lux.Ctl.new [.initialize]) exFrames).2 = .ok () ∧
    Lux.TriggersComplete noFault (fun _ => 0) Lux.Ctl.new [.initialize] :=
  ⟨rfl, by simp [Lux.TriggersComplete]⟩

/-- A number image that exists. -/
example : ∃ t, (Alp.numberImageOf (fun n s i j => decide (0 ≤ i ∧ i < s ∧ j < s * n)) 12 8 noFault
    (Alp.step noFault (Alp.Ctl.new true) .initialize).1 3).2 = .ok t := ⟨_, rfl⟩

end PySLM2.Controller
