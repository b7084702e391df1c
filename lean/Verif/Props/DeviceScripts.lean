import Verif.Model.DeviceScripts
import Verif.Props.Frames

/-!
# C130: the scripts that drive a device
-/

namespace PySLM2.Controller

namespace Lux

theorem numberImageOf_ok {glyphs : ℤ → ℕ → ℤ → ℤ → Bool} {w h : ℕ} {c : Ctl} {n : ℤ} {t : Tensor Bool}
    (ht : numberImageOf glyphs w h c n = .ok t) : t.shape = .mat h w ∧
      ∀ i < h, ∀ j < w, t.get i j = glyphs n (h / 2) ((i : ℤ) - (h / 4 : ℕ)) j :=
  ((C118_number_image glyphs w h noFault (Alp.Ctl.new false) n).2.2 c t ht).2

/-- A script that got to the prompt has loaded the two images. -/
theorem scriptLoad_ok {glyphs : ℤ → ℕ → ℤ → ℤ → Bool} {w h : ℕ} {fault : ℕ → Bool} {delay : ℕ → ℕ}
    (hok : (scriptLoad glyphs w h fault delay).2 = .ok ()) :
    ∃ t1 t2 : Tensor Bool, (∀ (n : ℤ) t, (n = 1 ∧ t = t1 ∨ n = 2 ∧ t = t2) → t.shape = .mat h w ∧
        ∀ i < h, ∀ j < w, t.get i j = glyphs n (h / 2) ((i : ℤ) - (h / 4 : ℕ)) j) ∧
      scriptLoad glyphs w h fault delay = loadArrays fault delay (run fault delay Ctl.new [.initialize]) [t1, t2] := by
  unfold scriptLoad at hok ⊢
  simp only at hok ⊢
  show ∃ t1 t2 : Tensor Bool, _ ∧ _ = loadArrays fault delay (step fault delay Ctl.new .initialize).1 [t1, t2]
  split at hok
  · cases hok
  rename_i h0
  split at hok
  · cases hok
  rename_i t1 h1
  split at hok
  · cases hok
  rename_i t2 h2
  refine ⟨t1, t2, ?_, ?_⟩
  · rintro n t (⟨rfl, rfl⟩ | ⟨rfl, rfl⟩)
    · exact numberImageOf_ok h1
    · exact numberImageOf_ok h2
  · simp only [h1, h2]

/-- A script that survived `k` presses has fired `k` triggers. -/
theorem script_triggered {glyphs : ℤ → ℕ → ℤ → ℤ → Bool} {w h : ℕ} {fault : ℕ → Bool} {delay pause : ℕ → ℕ} (h4 : ∀ i, 4 ≤ pause i) :
    ∀ {k : ℕ}, (script glyphs w h fault delay pause k).2 = .ok () → (scriptLoad glyphs w h fault delay).2 = .ok () ∧
      Triggered fault delay k (step fault delay (scriptLoad glyphs w h fault delay).1 (.idle (pause 0))).1
        (script glyphs w h fault delay pause k).1
  | 0, hok => by
    unfold script at hok ⊢
    simp only at hok ⊢
    split at hok
    · cases hok
    · rename_i h0
      exact ⟨h0, .none _⟩
  | k + 1, hok => by
    have e : script glyphs w h fault delay pause (k + 1) = match (script glyphs w h fault delay pause k).2 with
      | .error e => ((script glyphs w h fault delay pause k).1, .error e)
      | .ok _ => match (step fault delay (script glyphs w h fault delay pause k).1 .fireTrigger).2 with
        | .error e => ((step fault delay (script glyphs w h fault delay pause k).1 .fireTrigger).1, .error e)
        | .ok _ => step fault delay (step fault delay (script glyphs w h fault delay pause k).1 .fireTrigger).1
            (.idle (pause (k + 1))) := by rw [script]; rfl
    rw [e] at hok ⊢
    cases h1 : (script glyphs w h fault delay pause k).2 with
    | error e => rw [h1] at hok; cases hok
    | ok u =>
      cases h2 : (step fault delay (script glyphs w h fault delay pause k).1 .fireTrigger).2 with
      | error e => rw [h1, h2] at hok; cases hok
      | ok v =>
        obtain ⟨h5, h6⟩ := script_triggered (k := k) h4 h1
        exact ⟨h5, .more h6 .fireTrigger (.inl rfl) h2 _ (h4 _)⟩

theorem send_noFault (delay : ℕ → ℕ) (c : Ctl) (cmds : List Cmd) : (sendAll noFault delay c cmds).2 = .ok () ∧
    (sendAll noFault delay c cmds).1.initialized = c.initialized := by
  induction cmds generalizing c with
  | nil => exact ⟨rfl, rfl⟩
  | cons x cmds ih =>
    have := ih (send noFault delay c x).1
    simpa [sendAll, send, noFault] using this

end Lux

/-- **C130** for `load_images_luxbeam.py`, for all failures and timings of the device and whatever the font paints: if the script is
still running after Enter was pressed `k` times (not faster than the sequencer can follow), the device shows the number 1 if `k` is
even and 2 if `k` is odd. -/
theorem C130_luxbeam {glyphs : ℤ → ℕ → ℤ → ℤ → Bool} {w h : ℕ} {fault : ℕ → Bool} {delay pause : ℕ → ℕ} (h4 : ∀ i, 4 ≤ pause i)
    {k : ℕ} (hok : (Lux.script glyphs w h fault delay pause k).2 = .ok ()) :
    ∃ img, (Lux.script glyphs w h fault delay pause k).1.dev.shown = some img ∧ img.length = h * w ∧
      ∀ i < h, ∀ j < w, img[i * w + j]? =
        some (glyphs (if k % 2 = 0 then 1 else 2) (h / 2) ((i : ℤ) - (h / 4 : ℕ)) j) := by
  obtain ⟨h0, htr⟩ := Lux.script_triggered h4 hok
  obtain ⟨t1, t2, ht, he⟩ := Lux.scriptLoad_ok h0
  rw [he] at h0 htr
  have h1 := ht 1 t1 (.inl ⟨rfl, rfl⟩)
  have h2 := ht 2 t2 (.inr ⟨rfl, rfl⟩)
  obtain ⟨img, e1, e2, e3⟩ := C118_lux (ts := [t1, t2]) (by simp) (Ny := h) (Nx := w)
    (by simp only [List.mem_cons, List.not_mem_nil, or_false]; rintro t (rfl | rfl); exacts [h1.1, h2.1]) h0
    (by simp [Lux.TriggersComplete]) (by have := h4 0; omega) htr
  refine ⟨img, e1, e2, fun i hi j hj => ?_⟩
  rw [e3 i hi j hj]
  rcases Nat.mod_two_eq_zero_or_one k with hk | hk
  · simp only [List.length_cons, List.length_nil, zero_add, Nat.reduceAdd, hk, List.getElem_cons_zero, if_true, h1.2 i hi j hj]
  · simp only [List.length_cons, List.length_nil, zero_add, Nat.reduceAdd, hk, List.getElem_cons_succ, List.getElem_cons_zero, one_ne_zero, if_false,
      h2.2 i hi j hj]

/-- **C130**, no failures: on a device with at least two rows the script never ends. -/
theorem C130_luxbeam_runs (glyphs : ℤ → ℕ → ℤ → ℤ → Bool) (w : ℕ) {h : ℕ} (h2 : 2 ≤ h) (delay pause : ℕ → ℕ) (k : ℕ) :
    (Lux.script glyphs w h noFault delay pause k).2 = .ok () := by
  suffices H : (Lux.script glyphs w h noFault delay pause k).2 = .ok () ∧
      (Lux.script glyphs w h noFault delay pause k).1.initialized = true from H.1
  have hinit : (Lux.step noFault delay Lux.Ctl.new .initialize).2 = .ok () ∧
      (Lux.step noFault delay Lux.Ctl.new .initialize).1.initialized = true := by
    simp only [Lux.step]
    rw [(Lux.send_noFault delay Lux.Ctl.new Lux.initCmds).1]
    exact ⟨rfl, rfl⟩
  have hnum : ∀ n, Lux.numberImageOf glyphs w h (Lux.step noFault delay Lux.Ctl.new .initialize).1 n =
      .ok ⟨.mat h w, fun i j => glyphs n (h / 2) ((i : ℤ) - (h / 4 : ℕ)) j⟩ := fun n => by
    unfold Lux.numberImageOf numberImage
    rw [if_pos hinit.2, if_neg (by omega)]
  have hguard : ∀ (c : Lux.Ctl) cmds, c.initialized = true →
      (Lux.guarded c (Lux.sendAll noFault delay c cmds)).2 = .ok () ∧
      (Lux.guarded c (Lux.sendAll noFault delay c cmds)).1.initialized = true := fun c cmds hc => by
    unfold Lux.guarded
    rw [if_pos hc]
    exact ⟨(Lux.send_noFault delay c cmds).1, (Lux.send_noFault delay c cmds).2.trans hc⟩
  induction k with
  | zero =>
    have hload := hguard _ (Lux.loadMultipleCmds ([⟨.mat h w, fun i j => glyphs 1 (h / 2) ((i : ℤ) - (h / 4 : ℕ)) j⟩,
      ⟨.mat h w, fun i j => glyphs 2 (h / 2) ((i : ℤ) - (h / 4 : ℕ)) j⟩].map ravel)) hinit.2
    have e : Lux.scriptLoad glyphs w h noFault delay = Lux.loadArrays noFault delay (Lux.step noFault delay Lux.Ctl.new .initialize).1
        [⟨.mat h w, fun i j => glyphs 1 (h / 2) ((i : ℤ) - (h / 4 : ℕ)) j⟩,
          ⟨.mat h w, fun i j => glyphs 2 (h / 2) ((i : ℤ) - (h / 4 : ℕ)) j⟩] := by
      unfold Lux.scriptLoad
      simp only [hinit.1, hnum]
    have e2 : (Lux.scriptLoad glyphs w h noFault delay).2 = .ok () := by rw [e]; exact hload.1
    rw [Lux.script]
    simp only [e2]
    refine ⟨rfl, ?_⟩
    show (Lux.scriptLoad glyphs w h noFault delay).1.initialized = true
    rw [e]
    exact hload.2
  | succ k ih =>
    have hf := hguard _ Lux.triggerCmds ih.2
    rw [Lux.script]
    simp only [ih.1]
    have e : (Lux.step noFault delay (Lux.script glyphs w h noFault delay pause k).1 .fireTrigger).2 = .ok () := hf.1
    simp only [e]
    exact ⟨rfl, hf.2⟩

/-- **C130** for `master_example.py`: if the script gets to its prompt, the device projects the two images in turn, on its own timing;
if it then gets to its end, the device is dark, released, and holds no images. -/
theorem C130_master {glyphs : ℤ → ℕ → ℤ → ℤ → Bool} {fault : ℕ → Bool} (hok : (Alp.masterStart glyphs fault).2 = .ok ()) :
    (Alp.masterStart glyphs fault).1.dev.slave = false ∧
    (∃ data, (Alp.masterStart glyphs fault).1.dev.projecting = some (2, data) ∧ data.length = 2 * (1600 * 2560) ∧
      ∀ p : ℕ, p < 2 → ∀ i : ℕ, i < 1600 → ∀ j : ℕ, j < 2560 → data[(p * 1600 + i) * 2560 + j]? =
        some (if glyphs (if p = 0 then 1 else 2) 800 ((i : ℤ) - 400) j then 255 else 0)) ∧
    ((Alp.masterStop fault (Alp.masterStart glyphs fault).1).2 = .ok () →
      (Alp.masterStop fault (Alp.masterStart glyphs fault).1).1.dev.projecting = none ∧
      (Alp.masterStop fault (Alp.masterStart glyphs fault).1).1.dev.seqs = [] ∧
      (Alp.masterStop fault (Alp.masterStart glyphs fault).1).1.dev.allocated = false) := by
  have hnum : ∀ n, numberImage glyphs n 2560 1600 = .ok ⟨.mat 1600 2560, fun i j => glyphs n 800 ((i : ℤ) - 400) j⟩ := fun n => by
    unfold numberImage
    rw [if_neg (by decide)]
    rfl
  set one : Tensor Bool := ⟨.mat 1600 2560, fun i j => glyphs 1 800 ((i : ℤ) - 400) j⟩ with hone
  set two : Tensor Bool := ⟨.mat 1600 2560, fun i j => glyphs 2 800 ((i : ℤ) - 400) j⟩ with htwo
  have h1s : one.shape = .mat 1600 2560 := rfl
  have h2s : two.shape = .mat 1600 2560 := rfl
  have l1 := ravel_length h1s
  have l2 := ravel_length h2s
  have he : Alp.masterStart glyphs fault = Alp.sendAll fault (Alp.Ctl.new false)
      [.initialize, .seqAlloc 2, .seqPut (Alp.toBytes (ravel one ++ ravel two)), .seqInquire, .setTiming, .seqInquire, .run] := by
    unfold Alp.masterStart
    rw [hnum 1, hnum 2]
  have hdev := Alp.sendAll_ok _ _ (he ▸ hok)
  rw [← he] at hdev
  generalize hdata : Alp.toBytes (ravel one ++ ravel two) = data at hdev
  have hdev' : (Alp.masterStart glyphs fault).1.dev = ⟨[(0, 2, data)], 1, some 0, false, false, some 0, true⟩ := by rw [hdev]; rfl
  refine ⟨by rw [hdev'], ⟨data, by rw [hdev']; rfl, ?_, fun p hp i hi j hj => ?_⟩, fun hstop => ?_⟩
  · rw [← hdata, Alp.toBytes, List.length_map, List.length_append, l1, l2]
  · rw [← hdata, Alp.toBytes, List.getElem?_map]
    obtain rfl | rfl : p = 0 ∨ p = 1 := by omega
    · rw [List.getElem?_append_left (by rw [l1]; omega), zero_mul, zero_add, ravel_get h1s hi hj]
      rfl
    · rw [List.getElem?_append_right (by rw [l1]; omega), l1,
        show (1 * 1600 + i) * 2560 + j - 1600 * 2560 = i * 2560 + j by omega, ravel_get h2s hi hj]
      rfl
  · have := Alp.sendAll_ok _ _ hstop
    unfold Alp.masterStop at hstop ⊢
    rw [Alp.sendAll_ok _ _ hstop, hdev']
    exact ⟨rfl, rfl, rfl⟩

/-- C130: hypotheses met without failures, and with a failure of a call that is never made. -/
example (glyphs : ℤ → ℕ → ℤ → ℤ → Bool) :
    (Lux.script glyphs 12 8 noFault (fun _ => 1) (fun _ => 5) 3).2 = .ok () ∧ (Alp.masterStart glyphs fun k => decide (k = 20)).2 = .ok () :=
  ⟨C130_luxbeam_runs glyphs 12 (by norm_num) _ _ 3, rfl⟩

end PySLM2.Controller
