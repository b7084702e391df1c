import Verif.Lemmas.DmdHistory
import Verif.Props.RandomImage

/-!
# C101: the image of several patches
-/

noncomputable section

open Complex Finset

namespace PySLM2.DMD

open Lib Sim

/-- A `circular_patch` call on a boolean state overwrites a set of mirrors inside its disc by values that do not depend on
the state. -/
theorem patch_bool (d : DMD) (P : PatchArgs) : ∃ (S : ℕ → ℕ → Prop) (v : ℕ → ℕ → Bool), (∀ a b, S a b → P.covers a b) ∧
    ∀ t : Tensor Bool, t.shape = .mat d.slm.Ny d.slm.Nx → ∃ t' : Tensor Bool, t'.shape = t.shape ∧
      (d.call (.bool t) P.call).state (.bool t) = .bool t' ∧
      ∀ a b, (S a b → t'.get a b = v a b) ∧ (¬S a b → t'.get a b = t.get a b) := by
  classical
  cases hg : d.gratingOfArgs P.h P.amp P.phaseIn P.phaseOut P.method P.kw P.draw with
  | error e =>
    refine ⟨fun _ _ => False, fun _ _ => false, fun _ _ h => h.elim, fun t _ => ⟨t, rfl, ?_, fun a b => ⟨fun h => h.elim, fun _ => rfl⟩⟩⟩
    unfold call PatchArgs.call
    simp only [circularPatch]
    rw [hg]
    rfl
  | ok g =>
    by_cases hs : g.shape = .mat d.slm.Ny d.slm.Nx
    · have hcov : ∀ a b, circularMask P.i P.j P.diameter a b → P.covers a b := fun a b h => (circularMask_iff _ _ _ _ _).mp h
      cases g with
      | bool n =>
        refine ⟨circularMask P.i P.j P.diameter, n.get, hcov, fun t ht => ⟨⟨t.shape, fun a b =>
          if circularMask P.i P.j P.diameter a b then n.get a b else t.get a b⟩, rfl, ?_, fun a b =>
          ⟨fun h => if_pos h, fun h => if_neg h⟩⟩⟩
        unfold call PatchArgs.call
        simp only [circularPatch]
        rw [hg]
        simp only
        rw [if_pos ⟨hs, ht⟩]
        rfl
      | float n =>
        refine ⟨circularMask P.i P.j P.diameter, fun a b => castToBool (n.get a b), hcov, fun t ht => ⟨⟨t.shape, fun a b =>
          if circularMask P.i P.j P.diameter a b then castToBool (n.get a b) else t.get a b⟩, rfl, ?_, fun a b =>
          ⟨fun h => if_pos h, fun h => if_neg h⟩⟩⟩
        unfold call PatchArgs.call
        simp only [circularPatch]
        rw [hg]
        simp only
        rw [if_pos ⟨hs, ht⟩]
        rfl
    · refine ⟨fun _ _ => False, fun _ _ => false, fun _ _ h => h.elim, fun t _ => ⟨t, rfl, ?_, fun a b => ⟨fun h => h.elim, fun _ => rfl⟩⟩⟩
      unfold call PatchArgs.call
      simp only [circularPatch]
      rw [hg]
      simp only
      rw [if_neg fun hc => hs hc.1]
      rfl

/-- The mirrors after a list of patches with disjoint discs, started from a state that is off in all discs. -/
theorem patches_bool (d : DMD) : ∀ (ps : List PatchArgs),
    ps.Pairwise (fun P Q => ∀ a < d.slm.Ny, ∀ b < d.slm.Nx, ¬(P.covers a b ∧ Q.covers a b)) →
    ∀ t : Tensor Bool, t.shape = .mat d.slm.Ny d.slm.Nx →
    (∀ P ∈ ps, ∀ a < d.slm.Ny, ∀ b < d.slm.Nx, P.covers a b → t.get a b = false) →
    ∃ (T : Tensor Bool) (f : PatchArgs → Tensor Bool), T.shape = .mat d.slm.Ny d.slm.Nx ∧
      d.runCalls (.bool t) (ps.map PatchArgs.call) = .bool T ∧
      (∀ P, (f P).shape = .mat d.slm.Ny d.slm.Nx ∧ d.runCalls d.allOff [P.call] = .bool (f P)) ∧
      ∀ a < d.slm.Ny, ∀ b < d.slm.Nx, (if T.get a b then (1 : ℂ) else 0) =
        (if t.get a b then 1 else 0) + (ps.map fun P => if (f P).get a b then (1 : ℂ) else 0).sum := by
  classical
  have hone : ∀ P : PatchArgs, ∃ t' : Tensor Bool, t'.shape = .mat d.slm.Ny d.slm.Nx ∧ d.runCalls d.allOff [P.call] = .bool t' := by
    intro P
    obtain ⟨S, v, h1, h2⟩ := patch_bool d P
    obtain ⟨t', h3, h4, h5⟩ := h2 ⟨.mat d.slm.Ny d.slm.Nx, fun _ _ => false⟩ rfl
    exact ⟨t', h3, h4⟩
  choose f hf1 hf2 using hone
  intro ps
  induction ps with
  | nil =>
    intro _ t ht _
    exact ⟨t, f, ht, rfl, fun P => ⟨hf1 P, hf2 P⟩, fun a _ b _ => by simp⟩
  | cons P ps ih =>
    intro hpw t ht hoff
    rw [List.pairwise_cons] at hpw
    obtain ⟨S, v, h1, h2⟩ := patch_bool d P
    obtain ⟨t1, h3, h4, h5⟩ := h2 t ht
    obtain ⟨t0, k3, k4, k5⟩ := h2 ⟨.mat d.slm.Ny d.slm.Nx, fun _ _ => false⟩ rfl
    have hfP : f P = t0 := by
      have := (hf2 P).symm.trans k4
      injection this
    obtain ⟨T, f', g1, g2, g3, g4⟩ := ih hpw.2 t1 (h3.trans ht) fun Q hQ a ha b hb hc => by
      have hS : ¬S a b := fun hS => hpw.1 Q hQ a ha b hb ⟨h1 a b hS, hc⟩
      rw [(h5 a b).2 hS]
      exact hoff Q (List.mem_cons_of_mem _ hQ) a ha b hb hc
    refine ⟨T, f', g1, ?_, g3, fun a ha b hb => ?_⟩
    · rw [List.map_cons, runCalls, h4]
      exact g2
    · have hf' : f' P = t0 := by
        have := (g3 P).2.symm.trans k4
        injection this
      rw [g4 a ha b hb, List.map_cons, List.sum_cons, hf', ← add_assoc]
      congr 1
      by_cases hS : S a b
      · rw [(h5 a b).1 hS, (k5 a b).1 hS, hoff P (List.mem_cons_self ..) a ha b hb (h1 a b hS)]
        simp
      · rw [(h5 a b).2 hS, (k5 a b).2 hS]
        simp

/-- **C101.** Any number of `circular_patch` calls with discs that have no mirror in common, on a DMD that is off: the
simulated image field is the sum of the image fields that each of the patches alone would give (whatever the methods; a
call that raises contributes nothing). -/
theorem C101_patches {d : DMD} {s : Sim} {st : StateArr} (hdev : s.dev = .dmd d st) {px py : ℕ} {h : Profile.Heap} {a : ProfArg}
    {u m : ℕ → ℕ → ℂ} (rdy : Ready s px py h a u m) (ps : List PatchArgs)
    (hdisj : ps.Pairwise fun P Q => ∀ a < d.slm.Ny, ∀ b < d.slm.Nx, ¬(P.covers a b ∧ Q.covers a b)) :
    ∃ (img : Tensor ℂ) (alone : PatchArgs → Tensor ℂ),
      ((showing s d (d.runCalls d.initialState (ps.map PatchArgs.call))).propagate h a).1.imageField = some img ∧
      (∀ P, ((showing s d (d.runCalls d.initialState [P.call])).propagate h a).1.imageField = some (alone P)) ∧
      ∀ k < d.slm.Ny + 2 * py, ∀ l < d.slm.Nx + 2 * px, img.get k l = (ps.map fun P => (alone P).get k l).sum := by
  classical
  obtain ⟨T, f, h1, h2, h3, h4⟩ := patches_bool d ps hdisj ⟨.mat d.slm.Ny d.slm.Nx, fun _ _ => false⟩ rfl fun _ _ _ _ _ _ _ => rfl
  have rT := showing_ready hdev rdy (bool_modulation d h1)
  have rP := fun P => showing_ready hdev rdy (bool_modulation d (h3 P).1)
  obtain ⟨g, hg⟩ := imagePaddedGrid_ok rT
  obtain ⟨img, i1, i2⟩ := image_fieldAt rT hg
  choose alone a1 a2 using fun P => image_fieldAt (rP P) hg
  have e : d.initialState = .bool ⟨.mat d.slm.Ny d.slm.Nx, fun _ _ => false⟩ := rfl
  refine ⟨img, alone, ?_, fun P => ?_, fun k hk l hl => ?_⟩
  · rw [e, h2]; exact i1
  · rw [show d.initialState = d.allOff from rfl, (h3 P).2]; exact a1 P
  · have b1 := i2 k hk l hl
    have b2 := fun P => a2 P k hk l hl
    obtain ⟨c, -, hc⟩ := fieldAt_lin d.slm u (g.1.get k l) (g.2.get k l)
    rw [show img.get k l = _ from b1.trans (hc _)]
    simp only [b2]
    have e2 : ∀ P, fieldAt (showing s d (.bool (f P))).dev.slm (fun i j => u i j * if (f P).get i j then 1 else 0) (g.1.get k l) (g.2.get k l) =
        ∑ ij ∈ range d.slm.Ny ×ˢ range d.slm.Nx, c ij * if (f P).get ij.1 ij.2 then 1 else 0 := fun P => hc _
    simp only [e2]
    have e3 : ∀ qs : List PatchArgs, (qs.map fun P => ∑ ij ∈ range d.slm.Ny ×ˢ range d.slm.Nx, c ij * if (f P).get ij.1 ij.2 then 1 else 0).sum =
        ∑ ij ∈ range d.slm.Ny ×ˢ range d.slm.Nx, c ij * (qs.map fun P => if (f P).get ij.1 ij.2 then (1 : ℂ) else 0).sum := by
      intro qs
      induction qs with
      | nil => simp
      | cons Q qs ih => simp only [List.map_cons, List.sum_cons, ih, ← sum_add_distrib, mul_add]
    rw [e3]
    refine sum_congr rfl fun ij hij => ?_
    rw [mem_product, mem_range, mem_range] at hij
    rw [h4 _ hij.1 _ hij.2]
    simp

/-- C101: three patches on the 4 x 2 DMD of `exDmd`, with different methods, whose discs have no mirror in common. -/
example (h : Profile.Heap) : ∃ (ps : List PatchArgs), ps.length = 3 ∧
    (ps.Pairwise fun P Q => ∀ a < exDmd.slm.Ny, ∀ b < exDmd.slm.Nx, ¬(P.covers a b ∧ Q.covers a b)) ∧
    (∀ P ∈ ps, ∃ a < exDmd.slm.Ny, ∃ b < exDmd.slm.Nx, P.covers a b) ∧
    exSim.dev = .dmd exDmd (.bool exState) ∧ ∃ u m, Ready exSim 3 1 h exInput u m := by
  let P : ℝ → String → PatchArgs := fun j method =>
    ⟨h, 0, j, .num (.real 1), .num (.real 0), .num (.real 0), 1, method, {}, fun _ _ => 0⟩
  have hcov : ∀ (c : ℕ) (method : String) (a b : ℕ), (P c method).covers a b ↔ (a = 0 ∧ b = c) := by
    intro c method a b
    unfold PatchArgs.covers
    rw [← circularMask_iff]
    simp only [circularMask, P]
    constructor
    · intro h1
      have h2 : ((b : ℤ) - c) ^ 2 + (a : ℤ) ^ 2 < 1 := by
        have : (((b : ℤ) - c : ℤ) : ℝ) ^ 2 + ((a : ℤ) : ℝ) ^ 2 < 1 := by push_cast; linarith
        exact_mod_cast this
      have h3 : (a : ℤ) = 0 := by nlinarith [sq_nonneg ((b : ℤ) - c), sq_nonneg (a : ℤ)]
      have h4 : (b : ℤ) - c = 0 := by nlinarith [sq_nonneg ((b : ℤ) - c), sq_nonneg (a : ℤ)]
      omega
    · rintro ⟨rfl, rfl⟩
      norm_num
  refine ⟨[P (0 : ℕ) "simple", P (2 : ℕ) "random", P (3 : ℕ) "ideal"], rfl, ?_, ?_, rfl, _, _, exReady h⟩
  · simp only [List.pairwise_cons, List.mem_cons, List.not_mem_nil, or_false, forall_eq_or_imp, forall_eq, hcov, List.Pairwise.nil,
      and_true, false_imp_iff, implies_true]
    refine ⟨⟨?_, ?_⟩, ?_⟩ <;> · intro a _ b _; omega
  · intro Q hQ
    simp only [List.mem_cons, List.not_mem_nil, or_false] at hQ
    rcases hQ with rfl | rfl | rfl
    · exact ⟨0, by decide, 0, by decide, (hcov 0 _ 0 0).mpr ⟨rfl, rfl⟩⟩
    · exact ⟨0, by decide, 2, by decide, (hcov 2 _ 0 2).mpr ⟨rfl, rfl⟩⟩
    · exact ⟨0, by decide, 3, by decide, (hcov 3 _ 0 3).mpr ⟨rfl, rfl⟩⟩

end PySLM2.DMD
