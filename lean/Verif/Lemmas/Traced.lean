import Verif.Spec.Traced
import Verif.Lemmas.Attributes

/-!
# Lemmas on compiled profiles
-/

noncomputable section

namespace PySLM2.Traced

open Profile

/-! ## The graphs compute the profiles -/

theorem hg_run {h : Heap} {x0 y0 a w n m : ℕ} {x y : ℝ} {v : ℂ} (hv : eval h (.hg x0 y0 a w n m) x y = some v) :
    (hgGraph x0 y0 a w n m).run h x y = some v := by
  simp only [eval, hgFunc] at hv
  split at hv
  · cases hv
  · rename_i hw
    have hw' : (h.re w : ℂ) ≠ 0 := by exact_mod_cast hw
    rw [← hv]
    simp only [hgGraph, Graph.run, bin, un, Option.bind_some, Option.map_some, hw', if_false, ← Complex.ofReal_sub, ← Complex.ofReal_div,
      ← Complex.ofReal_mul, Complex.ofReal_re, ← Complex.ofReal_pow, ← Complex.ofReal_add, ← Complex.ofReal_neg, ← Complex.ofReal_exp]

theorem lg_run {h : Heap} {x0 y0 a w : ℕ} {l : ℤ} {p : ℕ} {x y : ℝ} {v : ℂ} (hv : eval h (.lg x0 y0 a w l p) x y = some v) :
    (lgGraph x0 y0 a w l p).run h x y = some v := by
  simp only [eval, lgFunc] at hv
  split at hv
  · cases hv
  · rename_i hw
    have hw' : (h.re w : ℂ) ≠ 0 := by exact_mod_cast hw
    have hw2 : ((h.re w ^ 2 : ℝ) : ℂ) ≠ 0 := by exact_mod_cast pow_ne_zero 2 hw
    have h2 : (2 : ℂ) = ((2 : ℝ) : ℂ) := by norm_num
    rw [← hv]
    simp only [lgGraph, Graph.run, bin, un, Option.bind_some, Option.map_some, hw', if_false, ← Complex.ofReal_sub, ← Complex.ofReal_div,
      h2, ← Complex.ofReal_mul, Complex.ofReal_re, ← Complex.ofReal_pow, ← Complex.ofReal_add, ← Complex.ofReal_neg, ← Complex.ofReal_exp, hw2]

theorem sg_run {h : Heap} {x0 y0 a w p : ℕ} {x y : ℝ} {v : ℂ} (hv : eval h (.sg x0 y0 a w p) x y = some v) :
    (sgGraph x0 y0 a w p).run h x y = some v := by
  simp only [eval, sgFunc] at hv
  split at hv
  · cases hv
  · rename_i hw
    have hw' : (h.re w : ℂ) ≠ 0 := by exact_mod_cast hw
    rw [Option.map_map, Option.map_eq_some_iff] at hv
    obtain ⟨e, he, hv⟩ := hv
    rw [← hv]
    simp only [sgGraph, Graph.run, bin, Option.bind_some, Option.map_some, hw', if_false, ← Complex.ofReal_sub, ← Complex.ofReal_div,
      ← Complex.ofReal_mul, Complex.ofReal_re, ← Complex.ofReal_pow, ← Complex.ofReal_add, applyAttr, he, ← Complex.ofReal_neg,
      ← Complex.ofReal_exp, Function.comp]

theorem run_mul {h : Heap} {a b : Graph} {x y : ℝ} {u v : ℝ} (ha : a.run h x y = some (u : ℂ)) (hb : b.run h x y = some (v : ℂ)) :
    (Graph.mul a b).run h x y = some ((u * v : ℝ) : ℂ) := by
  simp only [Graph.run, bin, ha, hb, Option.bind_some, Complex.ofReal_mul]

theorem run_polyval {h : Heap} {g : Graph} {coef : List ℝ} {x y u : ℝ} (hg : g.run h x y = some (u : ℂ)) :
    (Graph.polyval coef g).run h x y = some ((Profile.polyval coef u : ℝ) : ℂ) := by
  simp only [Graph.run, un, hg, Option.map_some, Complex.ofReal_re]

theorem run_cos {h : Heap} {g : Graph} {x y u : ℝ} (hg : g.run h x y = some (u : ℂ)) :
    (Graph.cos g).run h x y = some ((Real.cos u : ℝ) : ℂ) := by
  simp only [Graph.run, un, hg, Option.map_some, Complex.ofReal_re]

theorem run_sin {h : Heap} {g : Graph} {x y u : ℝ} (hg : g.run h x y = some (u : ℂ)) :
    (Graph.sin g).run h x y = some ((Real.sin u : ℝ) : ℂ) := by
  simp only [Graph.run, un, hg, Option.map_some, Complex.ofReal_re]

theorem zernike_run {h : Heap} {a : ℕ} {radius : ℝ} {n m : ℤ} {coef : List ℝ} {norm : Option ℝ} {ex : Bool} {x y : ℝ} {v : ℂ}
    (hv : eval h (.zernike a radius n m coef norm ex) x y = some v) : (zernikeGraph a radius n m coef norm ex).run h x y = some v := by
  simp only [eval, zernikeFunc] at hv
  split at hv
  · cases hv
  · rename_i hw
    have hw' : (radius : ℂ) ≠ 0 := by exact_mod_cast hw
    rw [← hv]
    have hrho : (Graph.div (.sqrt (.add (.npow .argX 2) (.npow .argY 2))) (.const radius)).run h x y =
        some (((Real.sqrt (x ^ 2 + y ^ 2) / radius : ℝ) : ℂ)) := by
      simp only [Graph.run, bin, un, Option.bind_some, Option.map_some, hw', if_false, ← Complex.ofReal_pow, ← Complex.ofReal_add,
        Complex.ofReal_re, ← Complex.ofReal_div]
    have hphi : (Graph.atan2 .argY .argX).run h x y = some ((Profile.atan2 y x : ℝ) : ℂ) := by
      simp only [Graph.run, bin, Option.bind_some, Complex.ofReal_re]
    have ha : (Graph.readRe a).run h x y = some (h.re a : ℂ) := rfl
    have hc : ∀ c : ℝ, (Graph.const (c : ℂ)).run h x y = some (c : ℂ) := fun _ => rfl
    unfold zernikeGraph
    dsimp only
    generalize Graph.div (.sqrt (.add (.npow .argX 2) (.npow .argY 2))) (.const radius) = rho at hrho ⊢
    generalize Real.sqrt (x ^ 2 + y ^ 2) / radius = ρ at hrho ⊢
    generalize Graph.atan2 .argY .argX = phi at hphi ⊢
    have hz : ((if n = 0 ∧ m = 0 then Graph.mul (.readRe a) (.const 1)
          else if m = 0 then .mul (.readRe a) (.polyval coef rho)
          else if m > 0 then .mul (.mul (.readRe a) (.polyval coef rho)) (.cos (.mul (.const m) phi))
          else .mul (.mul (.readRe a) (.polyval coef rho)) (.sin (.mul (.const (-m)) phi)) : Graph)).run h x y =
        some (((if n = 0 ∧ m = 0 then h.re a
          else if m = 0 then h.re a * Profile.polyval coef ρ
          else if m > 0 then h.re a * Profile.polyval coef ρ * Real.cos (m * Profile.atan2 y x)
          else h.re a * Profile.polyval coef ρ * Real.sin (-m * Profile.atan2 y x) : ℝ)) : ℂ) := by
      split_ifs
      · simp [Graph.run, bin]
      · exact run_mul ha (run_polyval hrho)
      · have := run_mul (run_mul ha (run_polyval (coef := coef) hrho)) (run_cos (run_mul (hc m) hphi))
        simpa using this
      · have := run_mul (run_mul ha (run_polyval (coef := coef) hrho)) (run_sin (run_mul (hc (-m)) hphi))
        simpa using this
    have hz' : (match norm with
        | some c => Graph.mul (.const c) (if n = 0 ∧ m = 0 then Graph.mul (.readRe a) (.const 1)
          else if m = 0 then .mul (.readRe a) (.polyval coef rho)
          else if m > 0 then .mul (.mul (.readRe a) (.polyval coef rho)) (.cos (.mul (.const m) phi))
          else .mul (.mul (.readRe a) (.polyval coef rho)) (.sin (.mul (.const (-m)) phi)) : Graph)
        | none => (if n = 0 ∧ m = 0 then Graph.mul (.readRe a) (.const 1)
          else if m = 0 then .mul (.readRe a) (.polyval coef rho)
          else if m > 0 then .mul (.mul (.readRe a) (.polyval coef rho)) (.cos (.mul (.const m) phi))
          else .mul (.mul (.readRe a) (.polyval coef rho)) (.sin (.mul (.const (-m)) phi)) : Graph)).run h x y =
        some (((match norm with
        | some c => c * (if n = 0 ∧ m = 0 then h.re a
          else if m = 0 then h.re a * Profile.polyval coef ρ
          else if m > 0 then h.re a * Profile.polyval coef ρ * Real.cos (m * Profile.atan2 y x)
          else h.re a * Profile.polyval coef ρ * Real.sin (-m * Profile.atan2 y x))
        | none => (if n = 0 ∧ m = 0 then h.re a
          else if m = 0 then h.re a * Profile.polyval coef ρ
          else if m > 0 then h.re a * Profile.polyval coef ρ * Real.cos (m * Profile.atan2 y x)
          else h.re a * Profile.polyval coef ρ * Real.sin (-m * Profile.atan2 y x)) : ℝ)) : ℂ) := by
      cases norm with
      | none => exact hz
      | some c => exact run_mul (hc c) hz
    cases ex
    · have hlt : (Graph.lt (.const 1) rho).run h x y = some (if ρ > 1 then 1 else 0) := by
        simp only [Graph.run, bin, hrho, Option.bind_some, Complex.one_re, Complex.ofReal_re, gt_iff_lt]
      simp only [Bool.false_eq_true, if_false]
      rw [Graph.run, hlt, Option.bind_some]
      by_cases h1 : ρ > 1
      · simp only [h1, if_true, Option.map_some]
        rfl
      · simp only [h1, if_false, if_neg (zero_ne_one (α := ℂ))]
        cases norm <;> exact hz'
    · simp only [if_true]
      cases norm <;> exact hz'

theorem rect_run {h : Heap} {x0 y0 wx wy : ℕ} {x y : ℝ} :
    (rectGraph x0 y0 wx wy).run h x y = some ((rectFunc (h.re x0) (h.re y0) (h.re wx) (h.re wy) x y : ℝ) : ℂ) := by
  have h2 : (2 : ℂ) = ((2 : ℝ) : ℂ) := by norm_num
  have h2' : ((2 : ℝ) : ℂ) ≠ 0 := by norm_num
  simp only [rectGraph, Graph.run, bin, un, Option.bind_some, Option.map_some, h2, h2', if_false, ← Complex.ofReal_sub, ← Complex.ofReal_div,
    Complex.ofReal_re, rectFunc]
  split_ifs <;> simp

theorem circ_run {h : Heap} {x0 y0 r : ℕ} {x y : ℝ} :
    (circGraph x0 y0 r).run h x y = some ((circFunc (h.re x0) (h.re y0) (h.re r) x y : ℝ) : ℂ) := by
  simp only [circGraph, Graph.run, bin, Option.bind_some, Option.map_some, ← Complex.ofReal_sub, ← Complex.ofReal_pow, ← Complex.ofReal_add,
    Complex.ofReal_re, circFunc]
  split_ifs <;> simp

theorem attr_run {h : Heap} {attr : Attr} {k : Kind} {a b : Graph} {x y : ℝ} {u v : ℂ} (ha : a.run h x y = some u)
    (hb : b.run h x y = some v) : (attrGraph attr k a b).run h x y = applyAttr attr k u v := by
  cases attr <;> simp [attrGraph, Graph.run, bin, ha, hb, applyAttr]

theorem call_args {h : Heap} {g : Graph} {x y : ℝ} : (Graph.call g .argX .argY).run h x y = g.run h x y := by
  simp [Graph.run]

/-! ## The table of graphs -/

/-- A graph that is right for this profile and these shapes. -/
def Good (f : Prof) (s : Sig) (e : Graph × Shape) : Prop :=
  (if rankZero f then e.2 = .scalar else bcast s.x s.y = some e.2) ∧
    ∀ h x y v, eval h f x y = some v → e.1.run h x y = some v

/-- All graphs kept are right. -/
def Sound (t : Table) : Prop := ∀ f s e, t f s = some e → Good f s e

/-- Graphs are never dropped or replaced. -/
def Keeps (t t' : Table) : Prop := ∀ f s e, t f s = some e → t' f s = some e

/-- What running the python code of a profile does. -/
structure Builds (f : Prof) (s : Sig) (t : Table) (r : Except PyErr (Graph × Shape) × Table) : Prop where
  sound : Sound r.2
  keeps : Keeps t r.2
  good : ∀ e, r.1 = .ok e → Good f s e
  fails : ∀ e, r.1 = .error e → bcast s.x s.y = none

theorem lookupOr_builds {t : Table} {f : Prof} {s : Sig} {mk : Table → Except PyErr (Graph × Shape) × Table} (ht : Sound t)
    (hm : Builds f s t (mk t)) :
    Builds f s t (lookupOr t f s mk) ∧ ∀ e, (lookupOr t f s mk).1 = .ok e → (lookupOr t f s mk).2 f s = some e := by
  unfold lookupOr
  cases hl : t f s with
  | some e =>
    dsimp only
    exact ⟨⟨ht, fun _ _ _ h => h, fun e' he => by cases he; exact ht _ _ _ hl, fun e' he => by cases he⟩,
      fun e' he => by cases he; exact hl⟩
  | none =>
    dsimp only
    obtain ⟨h1, h2, h3, h4⟩ := hm
    generalize mk t = r at *
    obtain ⟨r1, t'⟩ := r
    cases r1 with
    | error e => exact ⟨⟨h1, h2, fun e' he => (by cases he), h4⟩, fun e' he => by cases he⟩
    | ok e =>
      refine ⟨⟨?_, ?_, fun e' he => by cases he; exact h3 _ rfl, fun e' he => by cases he⟩, fun e' he => by cases he; simp [Table.set]⟩
      · intro f' s' e' he
        simp only [Table.set] at he
        split at he
        · rename_i hfs
          obtain ⟨rfl, rfl⟩ := hfs
          cases he
          exact h3 _ rfl
        · exact h1 _ _ _ he
      · intro f' s' e' he
        simp only [Table.set]
        split
        · rename_i hfs
          obtain ⟨rfl, rfl⟩ := hfs
          rw [hl] at he
          cases he
        · exact h2 _ _ _ he

theorem leaf_builds {t : Table} {f : Prof} {s : Sig} {g : Graph} (ht : Sound t) (hr : rankZero f = false)
    (hg : ∀ h x y v, eval h f x y = some v → g.run h x y = some v) : Builds f s t (leaf s g t) := by
  unfold leaf
  cases hb : bcast s.x s.y with
  | none => exact ⟨ht, fun _ _ _ h => h, fun e he => (by cases he), fun _ _ => hb⟩
  | some sh => exact ⟨ht, fun _ _ _ h => h, fun e he => by cases he; exact ⟨by simp [hr, hb], hg⟩, fun e he => by cases he⟩

theorem bcast_self (s : Shape) : bcast s s = some s := by
  cases s <;> simp [bcast, bcastDim]

theorem Keeps.trans {t t' t'' : Table} (h : Keeps t t') (h' : Keeps t' t'') : Keeps t t'' := fun _ _ _ he => h' _ _ _ (h _ _ _ he)

theorem concrete_builds (f : Prof) : ∀ (s : Sig) (t : Table), Sound t →
    Builds f s t (concrete f s t) ∧ ∀ e, (concrete f s t).1 = .ok e → (concrete f s t).2 f s = some e := by
  induction f with
  | const c i =>
    intro s t ht
    refine lookupOr_builds ht ⟨ht, fun _ _ _ h => h, fun e he => ?_, fun e he => by cases he⟩
    cases he
    exact ⟨by simp [rankZero], fun h x y v hv => by cases i <;> simpa [eval, Graph.run] using hv⟩
  | lit c =>
    intro s t ht
    refine lookupOr_builds ht ⟨ht, fun _ _ _ h => h, fun e he => ?_, fun e he => by cases he⟩
    cases he
    exact ⟨by simp [rankZero], fun h x y v hv => by simpa [eval, Graph.run] using hv⟩
  | hg => intro s t ht; exact lookupOr_builds ht (leaf_builds ht rfl fun h x y v => hg_run)
  | lg => intro s t ht; exact lookupOr_builds ht (leaf_builds ht rfl fun h x y v => lg_run)
  | sg => intro s t ht; exact lookupOr_builds ht (leaf_builds ht rfl fun h x y v => sg_run)
  | zernike => intro s t ht; exact lookupOr_builds ht (leaf_builds ht rfl fun h x y v => zernike_run)
  | rect => intro s t ht; exact lookupOr_builds ht (leaf_builds ht rfl fun h x y v hv => by rw [rect_run]; exact hv)
  | circ => intro s t ht; exact lookupOr_builds ht (leaf_builds ht rfl fun h x y v hv => by rw [circ_run]; exact hv)
  | bin attr f g ihf ihg =>
    intro s t ht
    refine lookupOr_builds ht ?_
    obtain ⟨⟨a1, a2, a3, a4⟩, -⟩ := ihf s t ht
    generalize concrete f s t = r1 at *
    obtain ⟨r1, t1⟩ := r1
    cases r1 with
    | error e => exact ⟨a1, a2, fun e he => (by cases he), fun e _ => a4 _ rfl⟩
    | ok e1 =>
      obtain ⟨g1, s1⟩ := e1
      dsimp only
      obtain ⟨⟨b1, b2, b3, b4⟩, -⟩ := ihg s t1 a1
      generalize concrete g s t1 = r2 at *
      obtain ⟨r2, t2⟩ := r2
      cases r2 with
      | error e => exact ⟨b1, a2.trans b2, fun e he => (by cases he), fun e _ => b4 _ rfl⟩
      | ok e2 =>
        obtain ⟨g2, s2⟩ := e2
        dsimp only
        obtain ⟨c1, c2⟩ := a3 _ rfl
        obtain ⟨d1, d2⟩ := b3 _ rfl
        have hsh : ∃ sh, bcast s1 s2 = some sh ∧
            (if rankZero (.bin attr f g) then sh = .scalar else bcast s.x s.y = some sh) := by
          simp only [rankZero]
          rcases Bool.eq_false_or_eq_true (rankZero f) with hf | hf <;> rcases Bool.eq_false_or_eq_true (rankZero g) with hg | hg <;>
            simp only [hf, hg, if_true, if_false, Bool.false_eq_true] at c1 d1
          · subst c1 d1
            exact ⟨.scalar, rfl, by simp [hf, hg]⟩
          · subst c1
            exact ⟨s2, by cases s2 <;> rfl, by simp [d1, hf, hg]⟩
          · subst d1
            exact ⟨s1, by cases s1 <;> rfl, by simp [c1, hf, hg]⟩
          · rw [c1] at d1
            cases d1
            exact ⟨s1, bcast_self s1, by simp [c1, hf, hg]⟩
        obtain ⟨sh, hs1, hs2⟩ := hsh
        rw [hs1]
        refine ⟨b1, a2.trans b2, fun e he => ?_, fun e he => by cases he⟩
        cases he
        refine ⟨hs2, fun h x y v hv => ?_⟩
        simp only [eval] at hv
        cases hu : eval h f x y with
        | none => simp [hu] at hv
        | some u =>
          cases hw : eval h g x y with
          | none => simp [hu, hw] at hv
          | some w =>
            simp only [hu, hw] at hv
            rw [attr_run (call_args.trans (c2 _ _ _ _ hu)) (call_args.trans (d2 _ _ _ _ hw)), hv]
  | binNum attr f c ihf =>
    intro s t ht
    refine lookupOr_builds ht ?_
    obtain ⟨⟨a1, a2, a3, a4⟩, -⟩ := ihf s t ht
    generalize concrete f s t = r1 at *
    obtain ⟨r1, t1⟩ := r1
    cases r1 with
    | error e => exact ⟨a1, a2, fun e he => (by cases he), fun e _ => a4 _ rfl⟩
    | ok e1 =>
      obtain ⟨g1, s1⟩ := e1
      obtain ⟨c1, c2⟩ := a3 _ rfl
      refine ⟨a1, a2, fun e he => ?_, fun e he => by cases he⟩
      cases he
      refine ⟨c1, fun h x y v hv => ?_⟩
      simp only [eval] at hv
      cases hu : eval h f x y with
      | none => simp [hu] at hv
      | some u =>
        simp only [hu] at hv
        rw [attr_run (call_args.trans (c2 _ _ _ _ hu)) rfl, hv]
  | rotate f th ihf =>
    intro s t ht
    refine lookupOr_builds ht ?_
    cases hb : bcast s.x s.y with
    | none => exact ⟨ht, fun _ _ _ h => h, fun e he => (by cases he), fun _ _ => hb⟩
    | some sh =>
      dsimp only
      obtain ⟨⟨a1, a2, a3, a4⟩, -⟩ := ihf ⟨sh, sh⟩ t ht
      generalize concrete f ⟨sh, sh⟩ t = r1 at *
      obtain ⟨r1, t1⟩ := r1
      cases r1 with
      | error e => exact absurd (a4 _ rfl) (by simp [bcast_self])
      | ok e1 =>
        obtain ⟨g1, s1⟩ := e1
        obtain ⟨c1, c2⟩ := a3 _ rfl
        refine ⟨a1, a2, fun e he => ?_, fun e he => by cases he⟩
        cases he
        refine ⟨?_, fun h x y v hv => ?_⟩
        · simp only [rankZero]
          rw [bcast_self] at c1
          rw [hb]
          exact c1
        · have := c2 _ _ _ _ hv
          simp only [Graph.run, bin, un, Option.bind_some, Option.map_some, Complex.ofReal_re, ← Complex.ofReal_mul, ← Complex.ofReal_sub,
            ← Complex.ofReal_add, this]
  | shift f dx dy ihf =>
    intro s t ht
    refine lookupOr_builds ht ?_
    obtain ⟨⟨a1, a2, a3, a4⟩, -⟩ := ihf s t ht
    generalize concrete f s t = r1 at *
    obtain ⟨r1, t1⟩ := r1
    cases r1 with
    | error e => exact ⟨a1, a2, fun e he => (by cases he), fun e _ => a4 _ rfl⟩
    | ok e1 =>
      obtain ⟨g1, s1⟩ := e1
      obtain ⟨c1, c2⟩ := a3 _ rfl
      refine ⟨a1, a2, fun e he => ?_, fun e he => by cases he⟩
      cases he
      refine ⟨c1, fun h x y v hv => ?_⟩
      have := c2 _ _ _ _ hv
      simp only [Graph.run, bin, Option.bind_some, Complex.ofReal_re, ← Complex.ofReal_sub, this]
  | rescaleX f m ihf =>
    intro s t ht
    refine lookupOr_builds ht ?_
    obtain ⟨⟨a1, a2, a3, a4⟩, -⟩ := ihf s t ht
    generalize concrete f s t = r1 at *
    obtain ⟨r1, t1⟩ := r1
    cases r1 with
    | error e => exact ⟨a1, a2, fun e he => (by cases he), fun e _ => a4 _ rfl⟩
    | ok e1 =>
      obtain ⟨g1, s1⟩ := e1
      obtain ⟨c1, c2⟩ := a3 _ rfl
      refine ⟨a1, a2, fun e he => ?_, fun e he => by cases he⟩
      cases he
      refine ⟨c1, fun h x y v hv => ?_⟩
      simp only [eval] at hv
      split at hv
      · cases hv
      · rename_i hm
        have hm' : (m : ℂ) ≠ 0 := by exact_mod_cast hm
        have := c2 _ _ _ _ hv
        simp only [Graph.run, bin, Option.bind_some, hm', if_false, Complex.ofReal_re, ← Complex.ofReal_div, this]
  | rescaleY f m ihf =>
    intro s t ht
    refine lookupOr_builds ht ?_
    obtain ⟨⟨a1, a2, a3, a4⟩, -⟩ := ihf s t ht
    generalize concrete f s t = r1 at *
    obtain ⟨r1, t1⟩ := r1
    cases r1 with
    | error e => exact ⟨a1, a2, fun e he => (by cases he), fun e _ => a4 _ rfl⟩
    | ok e1 =>
      obtain ⟨g1, s1⟩ := e1
      obtain ⟨c1, c2⟩ := a3 _ rfl
      refine ⟨a1, a2, fun e he => ?_, fun e he => by cases he⟩
      cases he
      refine ⟨c1, fun h x y v hv => ?_⟩
      simp only [eval] at hv
      split at hv
      · cases hv
      · rename_i hm
        have hm' : (m : ℂ) ≠ 0 := by exact_mod_cast hm
        have := c2 _ _ _ _ hv
        simp only [Graph.run, bin, Option.bind_some, hm', if_false, Complex.ofReal_re, ← Complex.ofReal_div, this]
  | asComplex f ihf =>
    intro s t ht
    refine lookupOr_builds ht ?_
    obtain ⟨⟨a1, a2, a3, a4⟩, -⟩ := ihf s t ht
    generalize concrete f s t = r1 at *
    obtain ⟨r1, t1⟩ := r1
    cases r1 with
    | error e => exact ⟨a1, a2, fun e he => (by cases he), fun e _ => a4 _ rfl⟩
    | ok e1 =>
      obtain ⟨g1, s1⟩ := e1
      obtain ⟨c1, c2⟩ := a3 _ rfl
      refine ⟨a1, a2, fun e he => ?_, fun e he => by cases he⟩
      cases he
      refine ⟨c1, fun h x y v hv => ?_⟩
      simp only [eval, Option.map_eq_some_iff] at hv
      obtain ⟨u, hu, rfl⟩ := hv
      have := c2 _ _ _ _ hu
      simp only [Graph.run, bin, Option.bind_some, Option.map_some, Complex.ofReal_re, this]

/-! ## Kept graphs and new graphs -/

/-- The graph made when nothing is kept. -/
def fresh (f : Prof) (s : Sig) : Except PyErr (Graph × Shape) := (concrete f s fun _ _ => none).1

/-- All graphs kept are those that would be made now. -/
def Exact (t : Table) : Prop := ∀ f s e, t f s = some e → fresh f s = .ok e

theorem exact_empty : Exact fun _ _ => none := fun _ _ _ h => by cases h

theorem lookupOr_exact {f : Prof} {s : Sig} {mk : Table → Except PyErr (Graph × Shape) × Table}
    (hc : ∀ t, concrete f s t = lookupOr t f s mk)
    (hm : ∀ t, Exact t → (mk t).1 = (mk fun _ _ => none).1 ∧ Exact (mk t).2) :
    ∀ t, Exact t → (concrete f s t).1 = fresh f s ∧ Exact (concrete f s t).2 := by
  have hfr : fresh f s = (mk fun _ _ => none).1 := by
    unfold fresh
    rw [hc]
    unfold lookupOr
    dsimp only
    generalize (mk fun _ _ => none) = r
    obtain ⟨r, t'⟩ := r
    cases r <;> rfl
  intro t ht
  rw [hc]
  unfold lookupOr
  cases hl : t f s with
  | some e => exact ⟨(ht _ _ _ hl).symm, ht⟩
  | none =>
    dsimp only
    obtain ⟨h1, h2⟩ := hm t ht
    rw [← hfr] at h1
    generalize mk t = r at *
    obtain ⟨r, t'⟩ := r
    cases r with
    | error e => exact ⟨h1, h2⟩
    | ok e =>
      refine ⟨h1, fun f' s' e' he => ?_⟩
      simp only [Table.set] at he
      split at he
      · rename_i hfs
        obtain ⟨rfl, rfl⟩ := hfs
        cases he
        exact h1.symm
      · exact h2 _ _ _ he

theorem leaf_exact (s : Sig) (g : Graph) (t : Table) (ht : Exact t) :
    (leaf s g t).1 = (leaf s g fun _ _ => none).1 ∧ Exact (leaf s g t).2 := by
  unfold leaf
  cases bcast s.x s.y <;> exact ⟨rfl, ht⟩

/-- One part. -/
theorem part_exact {f : Prof} {s : Sig} (ih : ∀ t, Exact t → (concrete f s t).1 = fresh f s ∧ Exact (concrete f s t).2)
    (k : Graph → Shape → Graph × Shape) (t : Table) (ht : Exact t) :
    (match concrete f s t with
      | (.error e, t1) => ((.error e : Except PyErr (Graph × Shape)), t1)
      | (.ok (g1, s1), t1) => (.ok (k g1 s1), t1)).1 =
    (match concrete f s fun _ _ => none with
      | (.error e, t1) => ((.error e : Except PyErr (Graph × Shape)), t1)
      | (.ok (g1, s1), t1) => (.ok (k g1 s1), t1)).1 ∧
    Exact (match concrete f s t with
      | (.error e, t1) => ((.error e : Except PyErr (Graph × Shape)), t1)
      | (.ok (g1, s1), t1) => (.ok (k g1 s1), t1)).2 := by
  obtain ⟨h1, h2⟩ := ih t ht
  unfold fresh at h1
  generalize concrete f s t = r at *
  generalize (concrete f s fun _ _ => none) = r' at *
  obtain ⟨r, t1⟩ := r
  obtain ⟨r', t1'⟩ := r'
  simp only at h1
  subst h1
  cases r <;> exact ⟨rfl, h2⟩

theorem concrete_exact (f : Prof) : ∀ (s : Sig) (t : Table), Exact t →
    (concrete f s t).1 = fresh f s ∧ Exact (concrete f s t).2 := by
  induction f with
  | const c i => intro s; exact lookupOr_exact (fun _ => rfl) fun t ht => ⟨rfl, ht⟩
  | lit c => intro s; exact lookupOr_exact (fun _ => rfl) fun t ht => ⟨rfl, ht⟩
  | hg => intro s; exact lookupOr_exact (fun _ => rfl) (leaf_exact _ _)
  | lg => intro s; exact lookupOr_exact (fun _ => rfl) (leaf_exact _ _)
  | sg => intro s; exact lookupOr_exact (fun _ => rfl) (leaf_exact _ _)
  | zernike => intro s; exact lookupOr_exact (fun _ => rfl) (leaf_exact _ _)
  | rect => intro s; exact lookupOr_exact (fun _ => rfl) (leaf_exact _ _)
  | circ => intro s; exact lookupOr_exact (fun _ => rfl) (leaf_exact _ _)
  | bin attr f g ihf ihg =>
    intro s
    refine lookupOr_exact (fun _ => rfl) fun t ht => ?_
    obtain ⟨h1, h2⟩ := ihf s t ht
    obtain ⟨-, h2'⟩ := ihf s _ exact_empty
    unfold fresh at h1
    generalize concrete f s t = r at *
    generalize (concrete f s fun _ _ => none) = r' at *
    obtain ⟨r, t1⟩ := r
    obtain ⟨r', t1'⟩ := r'
    simp only at h1
    subst h1
    cases r with
    | error e => exact ⟨rfl, h2⟩
    | ok e =>
      obtain ⟨g1, s1⟩ := e
      dsimp only
      obtain ⟨h3, h4⟩ := ihg s t1 h2
      obtain ⟨h3', -⟩ := ihg s t1' h2'
      rw [← h3'] at h3
      generalize concrete g s t1 = q at *
      generalize concrete g s t1' = q' at *
      obtain ⟨q, t2⟩ := q
      obtain ⟨q', t2'⟩ := q'
      simp only at h3
      subst h3
      cases q with
      | error e => exact ⟨rfl, h4⟩
      | ok e =>
        obtain ⟨g2, s2⟩ := e
        dsimp only
        cases bcast s1 s2 <;> exact ⟨rfl, h4⟩
  | binNum attr f c ihf =>
    intro s
    exact lookupOr_exact (fun _ => rfl) fun t ht => part_exact (ihf s) (fun g1 s1 => _) t ht
  | rotate f th ihf =>
    intro s
    refine lookupOr_exact (fun _ => rfl) fun t ht => ?_
    cases hb : bcast s.x s.y with
    | none => exact ⟨rfl, ht⟩
    | some sh => exact part_exact (ihf ⟨sh, sh⟩) (fun g1 s1 => _) t ht
  | shift f dx dy ihf =>
    intro s
    exact lookupOr_exact (fun _ => rfl) fun t ht => part_exact (ihf s) (fun g1 s1 => _) t ht
  | rescaleX f m ihf =>
    intro s
    exact lookupOr_exact (fun _ => rfl) fun t ht => part_exact (ihf s) (fun g1 s1 => _) t ht
  | rescaleY f m ihf =>
    intro s
    exact lookupOr_exact (fun _ => rfl) fun t ht => part_exact (ihf s) (fun g1 s1 => _) t ht
  | asComplex f ihf =>
    intro s
    exact lookupOr_exact (fun _ => rfl) fun t ht => part_exact (ihf s) (fun g1 s1 => _) t ht

theorem concrete_kept {f : Prof} {s : Sig} {t : Table} {e : Graph × Shape} (h : t f s = some e) : concrete f s t = (.ok e, t) := by
  cases f <;> simp only [concrete, lookupOr, h]

/-! ## Programs -/

theorem call_builds {t : Table} (ht : Sound t) (h : Heap) (f : Prof) (x y : Tensor ℝ) :
    Sound (Traced.call t h f x y).2 ∧ Keeps t (Traced.call t h f x y).2 ∧ (Traced.call t h f x y).2 = (concrete f ⟨x.shape, y.shape⟩ t).2 := by
  obtain ⟨⟨h1, h2, -, -⟩, -⟩ := concrete_builds f ⟨x.shape, y.shape⟩ t ht
  unfold Traced.call
  generalize concrete f ⟨x.shape, y.shape⟩ t = r at *
  obtain ⟨r, t'⟩ := r
  cases r <;> exact ⟨h1, h2, rfl⟩

theorem step_sound {w : World} (hw : Sound w.table) (a : Act) : Sound (w.step a).table ∧ Keeps w.table (w.step a).table := by
  cases a with
  | act a => exact ⟨hw, fun _ _ _ h => h⟩
  | call k x y =>
    simp only [World.step]
    cases w.prof.objs[k]? with
    | none => exact ⟨hw, fun _ _ _ h => h⟩
    | some f => exact ⟨(call_builds hw _ f x y).1, (call_builds hw _ f x y).2.1⟩

theorem run_sound {w : World} (hw : Sound w.table) (as : List Act) : Sound (w.run as).table ∧ Keeps w.table (w.run as).table := by
  unfold World.run
  induction as generalizing w with
  | nil => exact ⟨hw, fun _ _ _ h => h⟩
  | cons a as ih =>
    obtain ⟨h1, h2⟩ := step_sound hw a
    obtain ⟨h3, h4⟩ := ih h1
    exact ⟨h3, h2.trans h4⟩

theorem call_exact {t : Table} (ht : Exact t) (h : Heap) (f : Prof) (x y : Tensor ℝ) :
    Exact (Traced.call t h f x y).2 ∧ (Traced.call t h f x y).1 = (Traced.call (fun _ _ => none) h f x y).1 := by
  obtain ⟨h1, h2⟩ := concrete_exact f ⟨x.shape, y.shape⟩ t ht
  unfold Traced.call
  unfold fresh at h1
  generalize concrete f ⟨x.shape, y.shape⟩ t = r at *
  generalize (concrete f ⟨x.shape, y.shape⟩ fun _ _ => none) = r' at *
  obtain ⟨r, t1⟩ := r
  obtain ⟨r', t1'⟩ := r'
  simp only at h1
  subst h1
  cases r <;> exact ⟨h2, rfl⟩

theorem run_exact {w : World} (hw : Exact w.table) (as : List Act) : Exact (w.run as).table := by
  unfold World.run
  induction as generalizing w with
  | nil => exact hw
  | cons a as ih =>
    refine ih ?_
    cases a with
    | act a => exact hw
    | call k x y =>
      simp only [World.step]
      cases w.prof.objs[k]? with
      | none => exact hw
      | some f => exact (call_exact hw _ f x y).1

/-- Objects are never replaced. -/
theorem objs_step {w : AWorld} {k : ℕ} {f : Prof} (hf : w.objs[k]? = some f) (a : Profile.Act) : (w.step a).objs[k]? = some f := by
  have hmk : ∀ c : Cmd, ((∃ n, c = .new n) ∨ (∃ op a b, c = .binary op a b) ∨ (∃ k, c = .neg k) ∨ (∃ t k, c = .transform t k) ∨
      ∃ k, c = .asComplex k) → (w.make c).objs[k]? = some f := by
    intro c hc
    rcases make_spec ⟨w.heap, w.objs, []⟩ c hc with h | ⟨g, h, -⟩
    · simp only [AWorld.make, h, hf]
    · simp only [AWorld.make, h]
      rw [List.getElem?_append_left (List.getElem?_eq_some_iff.1 hf).1, hf]
  cases a with
  | setattr j nm v =>
    simp only [AWorld.step]
    cases hs : w.set j nm v with
    | none => exact hf
    | some w' => rw [Option.getD_some, set_length hs, hf]
  | new n => exact hmk _ (by simp)
  | binary op a b => exact hmk _ (by simp)
  | neg k => exact hmk _ (by simp)
  | transform tr k => exact hmk _ (by simp)
  | asComplex k => exact hmk _ (by simp)

theorem objs_run {w : World} {k : ℕ} {f : Prof} (hf : w.prof.objs[k]? = some f) (as : List Act) : (w.run as).prof.objs[k]? = some f := by
  unfold World.run
  induction as generalizing w with
  | nil => exact hf
  | cons a as ih =>
    refine ih ?_
    cases a with
    | act a => exact objs_step hf a
    | call j x y =>
      simp only [World.step]
      cases w.prof.objs[j]? <;> exact hf

theorem start_sound (h : Heap) : Sound (World.start h).table := fun _ _ _ he => by cases he

end PySLM2.Traced
