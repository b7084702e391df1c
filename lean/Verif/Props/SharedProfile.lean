import Verif.Model.SharedProfile

/-!
# C169: profiles that are evaluated while other threads set their parameters
-/

noncomputable section

open Complex

namespace PySLM2.Profile

/-- What is read decides the value. -/
theorem evalAt_eq {moment : ℕ → Heap} {h : Heap} (f : Prof) (k : ℕ)
    (hk : ∀ n q, (readList f)[n]? = some q → getParam (moment (k + n)) q = getParam h q) (x y : ℝ) :
    evalAt moment f k x y = eval h f x y := by
  have re : ∀ {n c : ℕ}, (readList f)[n]? = some (c, .real) → (moment (k + n)).re c = h.re c := fun hn =>
    Complex.ofReal_injective (hk _ _ hn)
  induction f generalizing k x y with
  | const c i =>
    cases i with
    | true => simp only [evalAt, eval, if_true]; exact congrArg some (hk 0 (c, .cplx) rfl)
    | false => simp only [evalAt, eval]; exact congrArg some (hk 0 (c, .real) rfl)
  | lit c => rfl
  | hg x0 y0 a w n m =>
    simp only [evalAt, eval]
    rw [show (moment k).re x0 = h.re x0 from re (n := 0) rfl, re (n := 1) rfl, re (n := 2) rfl, re (n := 3) rfl, re (n := 4) rfl]
    simp only [hgFuncAt, hgFunc, or_self]
  | lg x0 y0 a w l p =>
    simp only [evalAt, eval]
    rw [show (moment k).re x0 = h.re x0 from re (n := 0) rfl, re (n := 1) rfl, re (n := 2) rfl, re (n := 3) rfl, re (n := 4) rfl,
      re (n := 5) rfl, re (n := 6) rfl, re (n := 7) rfl]
    simp only [lgFuncAt, lgFunc, or_self]
  | sg x0 y0 a w p =>
    simp only [evalAt, eval]
    rw [show (moment k).re x0 = h.re x0 from re (n := 0) rfl, re (n := 1) rfl, re (n := 2) rfl, re (n := 3) rfl, re (n := 4) rfl,
      re (n := 5) rfl]
    simp only [sgFuncAt, sgFunc, or_self]
  | zernike a radius n m coef norm ex =>
    simp only [evalAt, eval]
    rw [show (moment k).re a = h.re a from re (n := 0) rfl]
  | rect x0 y0 wx wy =>
    simp only [evalAt, eval]
    rw [show (moment k).re x0 = h.re x0 from re (n := 0) rfl, re (n := 1) rfl, re (n := 2) rfl, re (n := 3) rfl]
  | circ x0 y0 r =>
    simp only [evalAt, eval]
    rw [show (moment k).re x0 = h.re x0 from re (n := 0) rfl, re (n := 1) rfl, re (n := 2) rfl]
  | bin attr f g ihf ihg =>
    have hf : ∀ n q, (readList f)[n]? = some q → getParam (moment (k + n)) q = getParam h q := fun n q hn => by
      refine hk n q ?_
      obtain ⟨hl, -⟩ := List.getElem?_eq_some_iff.mp hn
      simp only [readList]
      rw [List.getElem?_append_left hl, hn]
    have hg : ∀ n q, (readList g)[n]? = some q → getParam (moment (k + (readList f).length + n)) q = getParam h q := fun n q hn => by
      rw [add_assoc]
      refine hk _ q ?_
      simp only [readList]
      rw [List.getElem?_append_right (by omega), Nat.add_sub_cancel_left, hn]
    simp only [evalAt, eval]
    rw [ihf k hf x y fun hn => Complex.ofReal_injective (hf _ _ hn),
      ihg (k + (readList f).length) hg x y fun hn => Complex.ofReal_injective (hg _ _ hn)]
    cases eval h f x y <;> cases eval h g x y <;> rfl
  | binNum attr f c ih =>
    simp only [evalAt, eval, ih k hk x y re]
    cases eval h f x y <;> rfl
  | rotate f t ih => simp only [evalAt, eval, ih k hk _ _ re]
  | shift f dx dy ih => simp only [evalAt, eval, ih k hk _ _ re]
  | rescaleX f m ih => simp only [evalAt, eval, ih k hk _ _ re]
  | rescaleY f m ih => simp only [evalAt, eval, ih k hk _ _ re]
  | asComplex f ih => simp only [evalAt, eval, ih k hk _ _ re]

/-- **C169.** If meanwhile only parameters of other profiles are set, the value is that of the profile. -/
theorem C169_others {moment : ℕ → Heap} {h : Heap} (f : Prof)
    (hm : ∀ n q, q ∈ readList f → getParam (moment n) q = getParam h q) (x y : ℝ) : evalAt moment f 0 x y = eval h f x y :=
  evalAt_eq f 0 (fun _ _ hn => hm _ _ (List.mem_of_getElem? hn)) x y

/-- **C169** (partial: every variable is read once): the values at all points are those of the profile with parameters each of which was current at a moment
of the evaluation. -/
theorem C169_once_partial (moment : ℕ → Heap) {f : Prof} (hf : (readList f).Nodup) :
    ∃ h : Heap, (∀ q ∈ readList f, ∃ n < (readList f).length, getParam h q = getParam (moment n) q) ∧
      ∀ x y, evalAt moment f 0 x y = eval h f x y := by
  classical
  let h : Heap := ⟨fun c => (moment ((readList f).idxOf (c, .real))).re c, fun c => (moment ((readList f).idxOf (c, .cplx))).cx c, 0⟩
  have key : ∀ q, getParam h q = getParam (moment ((readList f).idxOf q)) q := by
    rintro ⟨c, kd⟩
    cases kd <;> rfl
  refine ⟨h, fun q hq => ⟨_, List.idxOf_lt_length_iff.mpr hq, key q⟩, evalAt_eq f 0 fun n q hn => ?_⟩
  obtain ⟨hl, rfl⟩ := List.getElem?_eq_some_iff.mp hn
  rw [key, hf.idxOf_getElem, zero_add]

/-- **C169** (partial: the variable is read at most once): while one parameter is set once, the values at all points are those of the profile before or
those after. -/
theorem C169_one_setter_partial {moment : ℕ → Heap} {h : Heap} {q : ℕ × Kind} {v : PyNum} {h' : Heap} (hv : assign h q v = .ok h') {f : Prof}
    (hm : ∀ n, moment n = h ∨ moment n = h') (hc : ¬ List.Duplicate q (readList f)) :
    (∀ x y, evalAt moment f 0 x y = eval h f x y) ∨ (∀ x y, evalAt moment f 0 x y = eval h' f x y) := by
  have other : ∀ q', q' ≠ q → getParam h' q' = getParam h q' := by
    obtain ⟨c, kd⟩ := q
    rintro ⟨c', kd'⟩ hne
    cases kd with
    | real =>
      cases v with
      | cplx z => cases hv
      | real r =>
        injection hv with hv
        subst hv
        cases kd' with
        | cplx => rfl
        | real =>
          have : c' ≠ c := fun e => hne (by rw [e])
          simp [getParam, assignRe, Function.update_of_ne this]
    | cplx =>
      injection hv with hv
      subst hv
      cases kd' with
      | real => rfl
      | cplx =>
        have : c' ≠ c := fun e => hne (by rw [e])
        simp [getParam, assignCx, Function.update_of_ne this]
  have one : ∀ n n' : ℕ, (readList f)[n]? = some q → (readList f)[n']? = some q → n = n' := by
    intro n n' h1 h2
    by_contra hne
    obtain ⟨l1, e1⟩ := List.getElem?_eq_some_iff.mp h1
    obtain ⟨l2, e2⟩ := List.getElem?_eq_some_iff.mp h2
    refine hc (List.duplicate_iff_exists_distinct_get.mpr ?_)
    rcases Nat.lt_or_gt_of_ne hne with hlt | hlt
    · exact ⟨⟨n, l1⟩, ⟨n', l2⟩, hlt, e1.symm, e2.symm⟩
    · exact ⟨⟨n', l2⟩, ⟨n, l1⟩, hlt, e2.symm, e1.symm⟩
  by_cases hex : ∃ n : ℕ, (readList f)[n]? = some q
  · obtain ⟨n, hn⟩ := hex
    have use : ∀ g, moment n = g → (g = h ∨ g = h') → ∀ x y, evalAt moment f 0 x y = eval g f x y := by
      intro g hg hgg
      refine evalAt_eq f 0 fun n' q' hn' => ?_
      rw [zero_add]
      by_cases e : q' = q
      · subst e
        rw [one n' n hn' hn, hg]
      · rcases hm n' with e1 | e1 <;> rcases hgg with e2 | e2 <;> rw [e1, e2]
        · exact (other q' e).symm
        · exact other q' e
    rcases hm n with e | e
    · exact Or.inl (use h e (Or.inl rfl))
    · exact Or.inr (use h' e (Or.inr rfl))
  · left
    refine evalAt_eq f 0 fun n' q' hn' => ?_
    rw [zero_add]
    have : q' ≠ q := fun e => hex ⟨n', e ▸ hn'⟩
    rcases hm n' with e1 | e1 <;> rw [e1]
    exact other q' this

/-- A heap with the given real variables -/
def realHeap (l : List ℝ) : Heap := ⟨fun c => l.getD c 0, fun _ => 0, l.length⟩

/-- **C169**, refuted for variables that are read twice: a round Gaussian beam whose waist is set from 1 to 2 between the two reads has values that no
parameters of the same profile give. -/
theorem C169_refuted : ∃ (f : Prof) (h h' : Heap) (q : ℕ × Kind) (v : PyNum) (moment : ℕ → Heap), assign h q v = .ok h' ∧
    (∀ n, moment n = h ∨ moment n = h') ∧ (∀ n n', n ≤ n' → moment n = h' → moment n' = h') ∧
    ∀ g : Heap, ∃ x y, evalAt moment f 0 x y ≠ eval g f x y := by
  have h12 : (realHeap [0, 0, 1, 1]).re 3 ≠ (assignRe (realHeap [0, 0, 1, 1]) 3 2).re 3 := by
    simp [realHeap, assignRe]
  refine ⟨.hg 0 1 2 3 0 0, realHeap [0, 0, 1, 1], assignRe (realHeap [0, 0, 1, 1]) 3 2, (3, .real), .real 2,
    fun n => if n < 3 then realHeap [0, 0, 1, 1] else assignRe (realHeap [0, 0, 1, 1]) 3 2, rfl, ?_, ?_, ?_⟩
  · intro n
    by_cases hn : n < 3 <;> simp [hn]
  · intro n n' hle hn
    by_cases h3 : n < 3
    · exact absurd (by simpa [h3] using congrArg (fun g : Heap => g.re 3) hn) h12
    · have : ¬ n' < 3 := by omega
      simp [this]
  · intro g
    by_contra hall
    push Not at hall
    have hc : hermiteCoef 0 = [1] := by simp [hermiteCoef, physHermite]
    have mixed : ∀ x y : ℝ, hgFuncAt 0 1 0 2 1 0 0 x y = some (Real.exp (-(x ^ 2 + (y / 2) ^ 2))) := fun x y => by
      simp [hgFuncAt, hc, polyval]
    have key : ∀ x y : ℝ, some (Real.exp (-(x ^ 2 + (y / 2) ^ 2))) = hgFunc (g.re 0) (g.re 1) (g.re 2) (g.re 3) 0 0 x y := fun x y => by
      have h1 := hall x y
      have h2 : evalAt (fun n => if n < 3 then realHeap [0, 0, 1, 1] else assignRe (realHeap [0, 0, 1, 1]) 3 2) (.hg 0 1 2 3 0 0) 0 x y =
          (hgFuncAt 0 1 0 2 1 0 0 x y).map Complex.ofReal := by
        simp [evalAt, realHeap, assignRe]
      rw [h2, mixed] at h1
      exact Option.map_injective Complex.ofReal_injective h1
    by_cases hw : g.re 3 = 0
    · have := key 0 0
      simp [hgFunc, hw] at this
    · have val : ∀ x y : ℝ, Real.exp (-(x ^ 2 + (y / 2) ^ 2)) =
          g.re 2 * Real.exp (-(((x - g.re 0) / g.re 3) ^ 2 + ((y - g.re 1) / g.re 3) ^ 2)) := fun x y => by
        simpa [hgFunc, hw, hc, polyval] using key x y
      generalize g.re 3 = w at *
      generalize g.re 2 = a at *
      generalize g.re 1 = y0 at *
      generalize g.re 0 = x0 at *
      have prod : ∀ s t : ℝ, Real.exp (-(s ^ 2 + (t / 2) ^ 2)) * Real.exp (-((-s) ^ 2 + (-t / 2) ^ 2)) =
          Real.exp (-(2 * (s ^ 2 + t ^ 2) / w ^ 2)) := by
        intro s t
        have h0 := val 0 0
        have h0' : a * Real.exp (-(((0 - x0) / w) ^ 2 + ((0 - y0) / w) ^ 2)) = 1 := by
          rw [← h0]; simp
        calc _ = (a * Real.exp (-(((0 - x0) / w) ^ 2 + ((0 - y0) / w) ^ 2))) * (a * Real.exp (-(((0 - x0) / w) ^ 2 + ((0 - y0) / w) ^ 2))) *
              Real.exp (-(2 * (s ^ 2 + t ^ 2) / w ^ 2)) := by
              rw [val s t, val (-s) (-t)]
              have : ∀ p q r z : ℝ, p + q = r + r + z → a * Real.exp p * (a * Real.exp q) = a * Real.exp r * (a * Real.exp r) * Real.exp z := by
                intro p q r z e
                have : Real.exp p * Real.exp q = Real.exp r * Real.exp r * Real.exp z := by
                  rw [← Real.exp_add, ← Real.exp_add, ← Real.exp_add, e]
                linear_combination a * a * this
              refine this _ _ _ _ ?_
              field_simp
              ring
          _ = _ := by rw [h0']; ring
      have e1 := prod 1 0
      have e2 := prod 0 1
      rw [← Real.exp_add] at e1 e2
      have e1 := Real.exp_injective e1
      have e2 := Real.exp_injective e2
      norm_num at e1 e2
      linarith

/-- **C169**, refuted for profiles that occur twice: the difference of a profile with itself is not 0 while its value is set. -/
theorem C169_difference_refuted : ∃ (f : Prof) (h h' : Heap) (q : ℕ × Kind) (v : PyNum) (moment : ℕ → Heap), assign h q v = .ok h' ∧
    (∀ n, moment n = h ∨ moment n = h') ∧ (readList f).Nodup ∧
    (∀ (g : Heap) (x y : ℝ), eval g (.bin .sub f f) x y = some 0) ∧
    ∀ x y : ℝ, evalAt moment (.bin .sub f f) 0 x y = some (-1) := by
  refine ⟨.const 0 false, realHeap [1], assignRe (realHeap [1]) 0 2, (0, .real), .real 2,
    fun n => if n = 0 then realHeap [1] else assignRe (realHeap [1]) 0 2, rfl, fun n => ?_, by simp [readList], fun g x y => ?_, fun x y => ?_⟩
  · by_cases hn : n = 0 <;> simp [hn]
  · simp [eval, applyAttr]
  · simp [evalAt, applyAttr, readList, realHeap, assignRe]
    norm_num


/-- The centre and the size of a circular window are read once each, and `x0` is read once by a Gaussian, its waist twice. -/
example : (readList (.circ 0 1 2)).Nodup ∧ ¬ List.Duplicate (0, .real) (readList (.hg 0 1 2 3 4 5)) ∧
    List.Duplicate (3, .real) (readList (.hg 0 1 2 3 4 5)) ∧ ¬ (readList (.bin .mul (.circ 0 1 2) (.circ 0 1 3))).Nodup := by
  refine ⟨by simp [readList], ?_, ?_, by simp [readList]⟩
  · simp [readList]
  · exact List.Mem.duplicate_cons_self (by simp) |>.duplicate_cons _

/-- A round window whose radius is set from 1 to 3 while it is evaluated: one of the two windows. -/
example (moment : ℕ → Heap) (hm : ∀ n, moment n = realHeap [0, 0, 1] ∨ moment n = assignRe (realHeap [0, 0, 1]) 2 3) :
    (∀ x y, evalAt moment (.circ 0 1 2) 0 x y = eval (realHeap [0, 0, 1]) (.circ 0 1 2) x y) ∨
    (∀ x y, evalAt moment (.circ 0 1 2) 0 x y = eval (assignRe (realHeap [0, 0, 1]) 2 3) (.circ 0 1 2) x y) :=
  C169_one_setter_partial (q := (2, .real)) (v := .real 3) rfl hm
    (List.nodup_iff_forall_not_duplicate.mp (by simp [readList]) _)

end PySLM2.Profile
