import Verif.Spec.Profile

/-!
# Lemmas on profiles
-/

noncomputable section

open Complex

namespace PySLM2.Profile

theorem Kind.join_cplx (a b : Kind) : a.join b = .cplx ↔ a = .cplx ∨ b = .cplx := by
  cases a <;> cases b <;> simp [Kind.join]

theorem Kind.join_real (a b : Kind) : a.join b = .real ↔ a = .real ∧ b = .real := by
  cases a <;> cases b <;> simp [Kind.join]

theorem PyNum.im_eq_zero {c : PyNum} (h : c.kind = .real) : c.val.im = 0 := by
  cases c with
  | real r => simp [PyNum.val]
  | cplx z => simp [PyNum.kind] at h

theorem applyAttr_im {attr : Attr} {a b v : ℂ} (ha : a.im = 0) (hb : b.im = 0)
    (h : applyAttr attr .real a b = some v) : v.im = 0 := by
  cases attr with
  | add | radd | sub | mul | rmul => simp [applyAttr] at h; rw [← h]; simp [ha, hb]
  | truediv =>
    simp only [applyAttr] at h
    split_ifs at h
    injection h with h
    rw [← h, Complex.div_im, ha, hb]; simp
  | pow =>
    simp only [applyAttr, Option.map_eq_some_iff] at h
    obtain ⟨r, -, rfl⟩ := h
    exact Complex.ofReal_im r

/-- Profiles of the real dtype have real values. -/
theorem eval_real (h : Heap) (f : Prof) : kind f = .real → ∀ (x y : ℝ) (v : ℂ), eval h f x y = some v → v.im = 0 := by
  induction f with
  | const c i =>
    intro hk x y v hv
    cases i
    · simp [eval] at hv; rw [← hv]; simp
    · simp [kind] at hk
  | lit c =>
    intro hk x y v hv
    simp [eval] at hv
    rw [← hv]
    exact PyNum.im_eq_zero hk
  | hg | sg | zernike =>
    intro hk x y v hv
    simp only [eval, Option.map_eq_some_iff] at hv
    obtain ⟨r, -, rfl⟩ := hv
    exact Complex.ofReal_im r
  | rect | circ =>
    intro hk x y v hv
    simp only [eval] at hv
    injection hv with hv
    rw [← hv]
    simp
  | lg => intro hk; simp [kind] at hk
  | bin attr f g ihf ihg =>
    intro hk x y v hv
    have hk2 := (Kind.join_real _ _).mp hk
    simp only [eval] at hv
    split at hv
    · rename_i a b ha hb
      change (kind f).join (kind g) = .real at hk
      rw [hk] at hv
      exact applyAttr_im (ihf hk2.1 x y a ha) (ihg hk2.2 x y b hb) hv
    · cases hv
  | binNum attr f c ihf =>
    intro hk x y v hv
    have hk2 := (Kind.join_real _ _).mp hk
    simp only [eval] at hv
    split at hv
    · rename_i a ha
      change (kind f).join c.kind = .real at hk
      rw [hk] at hv
      exact applyAttr_im (ihf hk2.1 x y a ha) (PyNum.im_eq_zero hk2.2) hv
    · cases hv
  | rotate f t ih => intro hk x y v hv; exact ih hk _ _ v hv
  | shift f dx dy ih => intro hk x y v hv; exact ih hk _ _ v hv
  | rescaleX f m ih =>
    intro hk x y v hv
    simp only [eval] at hv
    split_ifs at hv
    exact ih hk _ _ v hv
  | rescaleY f m ih =>
    intro hk x y v hv
    simp only [eval] at hv
    split_ifs at hv
    exact ih hk _ _ v hv
  | asComplex f ih => intro hk; simp [kind] at hk

/-- Where the result of an operator is defined. -/
theorem pyBinary_ok (op : Arith) {a b : PyVal} (hab : (∃ f, a = .prof f) ∨ ∃ g, b = .prof g)
    (ha : a ≠ .other) (hb : b ≠ .other) (hs : op = .sub ∨ op = .div → ∃ f, a = .prof f) :
    ∃ r, pyBinary op.py a b = .ok r ∧ kind r = (match a with | .prof f => kind f | .num c => c.kind | .other => .real).join
        (match b with | .prof f => kind f | .num c => c.kind | .other => .real) ∧
      ∀ h x y, eval h r x y = (a.value h x y).bind fun va => (b.value h x y).bind fun vb => op.apply va vb := by
  cases a with
  | other => exact absurd rfl ha
  | prof f =>
    cases b with
    | other => exact absurd rfl hb
    | prof g =>
      cases op with
      | _ =>
        refine ⟨_, rfl, rfl, fun h x y => ?_⟩
        simp only [eval, PyVal.value]
        cases eval h f x y <;> cases eval h g x y <;> simp [applyAttr, Arith.apply]
    | num c =>
      cases op with
      | _ =>
        refine ⟨_, rfl, rfl, fun h x y => ?_⟩
        simp only [eval, PyVal.value]
        cases eval h f x y <;> simp [applyAttr, Arith.apply]
  | num c =>
    cases b with
    | other => exact absurd rfl hb
    | num c' => simp at hab
    | prof g =>
      have hj : ∀ a b : Kind, a.join b = b.join a := by intro a b; cases a <;> cases b <;> rfl
      cases op with
      | add =>
        refine ⟨_, rfl, hj _ _, fun h x y => ?_⟩
        simp only [eval, PyVal.value]
        cases eval h g x y <;> simp [applyAttr, Arith.apply]
      | mul =>
        refine ⟨_, rfl, hj _ _, fun h x y => ?_⟩
        simp only [eval, PyVal.value]
        cases eval h g x y <;> simp [applyAttr, Arith.apply]
      | sub => simp at hs
      | div => simp at hs

end PySLM2.Profile
