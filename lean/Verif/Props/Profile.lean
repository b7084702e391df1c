import Verif.Lemmas.Profile
import Verif.Spec.ProfileHistory

/-!
# Profile arithmetic and transformations (C51-C54)
-/

noncomputable section

open Complex

namespace PySLM2.Profile

/-! ## C51 -/

theorem PyNum.val_mk {k : Kind} {z : ℂ} (h : k = .real → z.im = 0) : (PyNum.mk k z).val = z := by
  cases k with
  | real => exact Complex.ext rfl (h rfl).symm
  | cplx => rfl

theorem PyNum.kind_mk (k : Kind) (z : ℂ) : (PyNum.mk k z).kind = k := by cases k <;> rfl

theorem Arith.apply_im {op : Arith} {a b v : ℂ} (ha : a.im = 0) (hb : b.im = 0) (h : op.apply a b = some v) :
    v.im = 0 := by
  cases op with
  | add | sub | mul => simp [Arith.apply] at h; rw [← h]; simp [ha, hb]
  | div =>
    simp only [Arith.apply] at h
    split_ifs at h
    injection h with h
    rw [← h, Complex.div_im, ha, hb]; simp

/-- **C51.** Whatever python computes for an expression over profiles and numbers, nested to any depth, has at
every point and for all parameter values of the profiles the value of the same expression of the values
(undefined exactly where that divides by zero), and is complex exactly if one of the operands is. -/
theorem C51_expressions (e : Expr) : ∀ v, e.python = .ok v →
    (∀ h x y, v.value h x y = e.value h x y) ∧ (v.isComplex ↔ e.isComplex) ∧ v ≠ .other ∧
      ((∃ c, v = .num c) ↔ e.isNumber) := by
  induction e with
  | prof f => intro v hv; injection hv with hv; subst hv; simp [PyVal.value, Expr.value, PyVal.isComplex, Expr.isComplex, Expr.isNumber]
  | num c => intro v hv; injection hv with hv; subst hv; simp [PyVal.value, Expr.value, PyVal.isComplex, Expr.isComplex, Expr.isNumber]
  | arith op a b iha ihb =>
    intro v hv
    simp only [Expr.python] at hv
    cases ea : a.python with
    | error e => rw [ea] at hv; cases hv
    | ok va =>
      cases eb : b.python with
      | error e => rw [ea, eb] at hv; cases hv
      | ok vb =>
        obtain ⟨a1, a2, a3, a4⟩ := iha va ea
        obtain ⟨b1, b2, b3, b4⟩ := ihb vb eb
        rw [ea, eb] at hv
        simp only at hv
        by_cases hnum : (∃ c, va = .num c) ∧ ∃ c, vb = .num c
        · obtain ⟨⟨ca, rfl⟩, ⟨cb, rfl⟩⟩ := hnum
          simp only at hv
          split at hv
          · rename_i w hw
            injection hv with hv
            subst hv
            refine ⟨fun h x y => ?_, ?_, by simp, ?_⟩
            · simp only [PyVal.value, Expr.value]
              rw [← a1, ← b1]
              simp only [PyVal.value, Option.bind_some]
              rw [hw, PyNum.val_mk]
              intro hk
              have hk := (Kind.join_real _ _).mp hk
              exact Arith.apply_im (PyNum.im_eq_zero hk.1) (PyNum.im_eq_zero hk.2) hw
            · simp only [PyVal.isComplex, Expr.isComplex] at a2 b2 ⊢
              rw [← a2, ← b2, PyNum.kind_mk, Kind.join_cplx]
            · simp only [Expr.isNumber]
              rw [← a4, ← b4]
              simp
          · cases hv
        · have hp : (∃ f, va = .prof f) ∨ ∃ g, vb = .prof g := by
            cases va with
            | prof f => exact .inl ⟨f, rfl⟩
            | other => exact absurd rfl a3
            | num c =>
              cases vb with
              | prof f => exact .inr ⟨f, rfl⟩
              | other => exact absurd rfl b3
              | num c' => exact absurd ⟨⟨c, rfl⟩, ⟨c', rfl⟩⟩ hnum
          have hv' : (pyBinary op.py va vb).map PyVal.prof = .ok v := by
            cases va <;> cases vb <;> first | exact hv | (exfalso; exact hnum ⟨⟨_, rfl⟩, ⟨_, rfl⟩⟩)
          have hsub : op = .sub ∨ op = .div → ∃ f, va = .prof f := by
            intro ho
            cases va with
            | prof f => exact ⟨f, rfl⟩
            | other => exact absurd rfl a3
            | num c =>
              exfalso
              obtain ⟨g, rfl⟩ := hp.resolve_left (by simp)
              rcases ho with rfl | rfl <;> cases hv'
          obtain ⟨r, r1, r2, r3⟩ := pyBinary_ok op hp a3 b3 hsub
          rw [r1] at hv'
          injection hv' with hv'
          subst hv'
          refine ⟨fun h x y => ?_, ?_, by simp, ?_⟩
          · show eval h r x y = _
            rw [r3, a1, b1]
            rfl
          · show kind r = .cplx ↔ _
            rw [r2, Kind.join_cplx]
            simp only [Expr.isComplex]
            rw [← a2, ← b2]
            cases va <;> cases vb <;> simp [PyVal.isComplex] at a3 b3 ⊢
          · simp only [Expr.isNumber]
            rw [← a4, ← b4]
            simp only [reduceCtorEq, exists_false, false_iff]
            exact hnum
  | neg a iha =>
    intro v hv
    simp only [Expr.python] at hv
    cases ea : a.python with
    | error e => rw [ea] at hv; cases hv
    | ok va =>
      obtain ⟨a1, a2, a3, a4⟩ := iha va ea
      rw [ea] at hv
      cases va with
      | other => exact absurd rfl a3
      | num c =>
        injection hv with hv
        subst hv
        refine ⟨fun h x y => ?_, ?_, by simp, ?_⟩
        · simp only [PyVal.value, Expr.value]
          rw [← a1]
          simp only [PyVal.value, Option.map_some]
          rw [PyNum.val_mk]
          intro hk
          simp [PyNum.im_eq_zero hk]
        · simp only [PyVal.isComplex, Expr.isComplex] at a2 ⊢
          rw [← a2, PyNum.kind_mk]
        · simp only [Expr.isNumber]
          rw [← a4]
          simp
      | prof f =>
        injection hv with hv
        subst hv
        refine ⟨fun h x y => ?_, ?_, by simp, ?_⟩
        · simp only [PyVal.value, Expr.value]
          rw [← a1]
          simp only [eval, PyVal.value]
          cases eval h f x y <;> simp [applyAttr, PyNum.val]
        · simp only [PyVal.isComplex, Expr.isComplex] at a2 ⊢
          rw [← a2]
          simp [kind, PyNum.kind, Kind.join_cplx]
        · simp only [Expr.isNumber]
          rw [← a4]
          simp

/-- **C51.** Every supported expression is computed without an exception. -/
theorem C51_supported (e : Expr) : e.Supported → ∃ v, e.python = .ok v := by
  induction e with
  | prof f => intro _; exact ⟨_, rfl⟩
  | num c => intro _; exact ⟨_, rfl⟩
  | arith op a b iha ihb =>
    rintro ⟨sa, sb, h1, h2⟩
    obtain ⟨va, ea⟩ := iha sa
    obtain ⟨vb, eb⟩ := ihb sb
    obtain ⟨a1, a2, a3, a4⟩ := C51_expressions a va ea
    obtain ⟨b1, b2, b3, b4⟩ := C51_expressions b vb eb
    simp only [Expr.python, ea, eb]
    by_cases hnum : (∃ c, va = .num c) ∧ ∃ c, vb = .num c
    · obtain ⟨⟨ca, rfl⟩, ⟨cb, rfl⟩⟩ := hnum
      simp only
      cases hw : op.apply ca.val cb.val with
      | some w => exact ⟨_, rfl⟩
      | none =>
        exfalso
        cases op with
        | add | sub | mul => simp [Arith.apply] at hw
        | div =>
          have := h2 ⟨fun _ => 0, fun _ => 0, 0⟩ 0 0 (a4.mp ⟨_, rfl⟩) (b4.mp ⟨_, rfl⟩) rfl
          rw [← b1] at this
          simp only [PyVal.value] at this
          simp only [Arith.apply] at hw
          split_ifs at hw with h0
          exact this (by rw [h0])
    · have hp : (∃ f, va = .prof f) ∨ ∃ g, vb = .prof g := by
        cases va with
        | prof f => exact .inl ⟨f, rfl⟩
        | other => exact absurd rfl a3
        | num c =>
          cases vb with
          | prof f => exact .inr ⟨f, rfl⟩
          | other => exact absurd rfl b3
          | num c' => exact absurd ⟨⟨c, rfl⟩, ⟨c', rfl⟩⟩ hnum
      have hsub : op = .sub ∨ op = .div → ∃ f, va = .prof f := by
        intro ho
        cases va with
        | prof f => exact ⟨f, rfl⟩
        | other => exact absurd rfl a3
        | num c =>
          exfalso
          exact hnum ⟨⟨c, rfl⟩, b4.mpr (h1 ho (a4.mp ⟨c, rfl⟩))⟩
      obtain ⟨r, r1, r2, r3⟩ := pyBinary_ok op hp a3 b3 hsub
      cases va <;> cases vb <;>
        first | exact ⟨.prof r, by show Except.map PyVal.prof (pyBinary _ _ _) = _; rw [r1]; rfl⟩ | (exfalso; exact hnum ⟨⟨_, rfl⟩, ⟨_, rfl⟩⟩)
  | neg a iha =>
    intro sa
    obtain ⟨va, ea⟩ := iha sa
    obtain ⟨a1, a2, a3, a4⟩ := C51_expressions a va ea
    simp only [Expr.python, ea]
    cases va with
    | prof f => exact ⟨_, rfl⟩
    | num c => exact ⟨_, rfl⟩
    | other => exact absurd rfl a3

/-- **C51**, the limits: a number minus a profile and a number divided by a profile raise `TypeError`; any
operation with an operand that is neither a profile nor a python number (such as a numpy array) on the right
raises `NotImplementedError`. -/
theorem C51_unsupported (f : Prof) (c : PyNum) (op : PyOp) :
    pyBinary .sub (.num c) (.prof f) = .error .typeError ∧ pyBinary .div (.num c) (.prof f) = .error .typeError ∧
    pyBinary .pow (.num c) (.prof f) = .error .typeError ∧ pyBinary op (.prof f) .other = .error .notImplementedError := by
  refine ⟨rfl, rfl, rfl, ?_⟩
  cases op <;> rfl

/-- C51: `2j * (f + 1) / g - (-f)`, and an unsupported expression. -/
example (f g : Prof) : (Expr.arith .sub (.arith .div (.arith .mul (.num (.cplx (2 * I)))
      (.arith .add (.prof f) (.num (.real 1)))) (.prof g)) (.neg (.prof f))).Supported ∧
    ¬(Expr.arith .sub (.num (.real 1)) (.prof f)).Supported := by
  simp [Expr.Supported, Expr.isNumber]

/-! ## C52 -/

/-- **C52.** `f ** k` for a profile and a number is always accepted; its dtype is complex exactly if one of
them is complex. -/
theorem C52_dtype (f : Prof) (c : PyNum) : ∃ r, pyBinary .pow (.prof f) (.num c) = .ok r ∧
    (kind r = .cplx ↔ kind f = .cplx ∨ c.kind = .cplx) :=
  ⟨_, rfl, Kind.join_cplx _ _⟩

theorem powReal_natCast (t : ℝ) (n : ℕ) : powReal t n = some (t ^ n) := by
  unfold powReal
  rcases lt_trichotomy t 0 with ht | ht | ht
  · rw [if_neg (by linarith), if_neg (by linarith), if_pos (by simp)]
    simp
  · subst ht
    rcases Nat.eq_zero_or_pos n with hn | hn
    · subst hn; simp
    · rw [if_neg (by simp), if_pos rfl, if_pos (by exact_mod_cast hn)]
      simp [hn.ne']
  · rw [if_pos ht, Real.rpow_natCast]

/-- **C52.** Natural exponents (real dtype): the power of the value, for all values. -/
theorem C52_natural {h : Heap} {f r : Prof} {n : ℕ} {x y : ℝ} {v : ℂ} (hk : kind f = .real)
    (hr : pyBinary .pow (.prof f) (.num (.real n)) = .ok r) (hv : eval h f x y = some v) :
    eval h r x y = some (v ^ n) := by
  injection hr with hr
  subst hr
  have him := eval_real h f hk x y v hv
  obtain ⟨t, rfl⟩ : ∃ t : ℝ, v = t := ⟨v.re, Complex.ext rfl him⟩
  simp only [eval, hv, hk, PyNum.kind, Kind.join, applyAttr, PyNum.val, Complex.ofReal_re]
  rw [powReal_natCast]
  simp

/-- **C52.** Real exponents on positive values (real dtype). -/
theorem C52_real {h : Heap} {f r : Prof} {k t : ℝ} {x y : ℝ} (hk : kind f = .real)
    (hr : pyBinary .pow (.prof f) (.num (.real k)) = .ok r) (hv : eval h f x y = some (t : ℂ)) (ht : 0 < t) :
    eval h r x y = some ((t ^ k : ℝ) : ℂ) := by
  injection hr with hr
  subst hr
  simp only [eval, hv, hk, PyNum.kind, Kind.join, applyAttr, PyNum.val, powReal, Complex.ofReal_re]
  rw [if_pos ht]
  simp

/-- **C52.** If the profile or the exponent is complex: the complex power `exp(k log v)` of non-zero values; for
natural exponents the power of the value. -/
theorem C52_complex {h : Heap} {f r : Prof} {c : PyNum} {x y : ℝ} {v : ℂ} (hk : kind f = .cplx ∨ c.kind = .cplx)
    (hr : pyBinary .pow (.prof f) (.num c) = .ok r) (hv : eval h f x y = some v) (h0 : v ≠ 0) :
    eval h r x y = some (cexp (c.val * Complex.log v)) ∧ ∀ n : ℕ, c.val = n → eval h r x y = some (v ^ n) := by
  injection hr with hr
  subst hr
  have hj := (Kind.join_cplx (kind f) c.kind).mpr hk
  have : eval h (.binNum .pow f c) x y = some (v ^ c.val) := by
    simp only [eval, hv, hj, applyAttr, powCplx, if_neg h0]
  change eval h (.binNum .pow f c) x y = _ ∧ ∀ n : ℕ, _ → eval h (.binNum .pow f c) x y = _
  rw [this]
  refine ⟨?_, fun n hn => ?_⟩
  · rw [Complex.cpow_def_of_ne_zero h0, mul_comm]
  · rw [hn, Complex.cpow_natCast]

/-- C52: a profile with a negative value, a positive one and a complex one. -/
example (h : Heap) (x y : ℝ) : eval h (.lit (.real (-2))) x y = some ((-2 : ℝ) : ℂ) ∧
    eval h (.lit (.real 3)) x y = some ((3 : ℝ) : ℂ) ∧ eval h (.lit (.cplx I)) x y = some I ∧ I ≠ 0 ∧
    kind (.lit (.real (-2))) = .real ∧ kind (.lit (.cplx I)) = .cplx := ⟨rfl, rfl, rfl, I_ne_zero, rfl, rfl⟩

/-! ## C53 -/

/-- **C53.** The documented formulas. -/
theorem C53_formulas (h : Heap) (f : Prof) (t dx dy m x y : ℝ) :
    eval h (.shift f dx dy) x y = eval h f (x - dx) (y - dy) ∧
    eval h (.rotate f t) x y =
      eval h f (Real.cos t * x - Real.sin t * y) (Real.sin t * x + Real.cos t * y) ∧
    (m ≠ 0 → eval h (.rescaleX f m) x y = eval h f (x / m) y ∧ eval h (.rescaleY f m) x y = eval h f x (y / m)) ∧
    kind (.shift f dx dy) = kind f ∧ kind (.rotate f t) = kind f ∧ kind (.rescaleX f m) = kind f ∧
    kind (.rescaleY f m) = kind f := by
  refine ⟨rfl, rfl, fun hm => ⟨?_, ?_⟩, rfl, rfl, rfl, rfl⟩ <;> simp [eval, hm]

/-- **C53.** Compositions. -/
theorem C53_compose (h : Heap) (f : Prof) (s t dx dy ex ey m k x y : ℝ) :
    eval h (.shift (.shift f dx dy) ex ey) x y = eval h (.shift f (dx + ex) (dy + ey)) x y ∧
    eval h (.rotate (.rotate f s) t) x y = eval h (.rotate f (s + t)) x y ∧
    (m ≠ 0 → k ≠ 0 → eval h (.rescaleX (.rescaleX f m) k) x y = eval h (.rescaleX f (m * k)) x y ∧
      eval h (.rescaleY (.rescaleY f m) k) x y = eval h (.rescaleY f (m * k)) x y) ∧
    eval h (.rescaleX (.rescaleY f m) k) x y = eval h (.rescaleY (.rescaleX f k) m) x y := by
  refine ⟨?_, ?_, fun hm hk => ⟨?_, ?_⟩, ?_⟩
  · simp only [eval]
    congr 1 <;> ring
  · simp only [eval]
    rw [Real.cos_add, Real.sin_add]
    congr 1 <;> ring
  · have : m * k ≠ 0 := mul_ne_zero hm hk
    simp only [eval, if_neg hm, if_neg hk, if_neg this]
    congr 1
    field_simp
  · have : m * k ≠ 0 := mul_ne_zero hm hk
    simp only [eval, if_neg hm, if_neg hk, if_neg this]
    congr 1
    field_simp
  · simp only [eval]
    split_ifs <;> rfl

/-- **C53.** Identities and inverses. -/
theorem C53_undo (h : Heap) (f : Prof) (t dx dy m x y : ℝ) :
    eval h (.shift f 0 0) x y = eval h f x y ∧ eval h (.rotate f 0) x y = eval h f x y ∧
    eval h (.rescaleX f 1) x y = eval h f x y ∧ eval h (.rescaleY f 1) x y = eval h f x y ∧
    eval h (.shift (.shift f dx dy) (-dx) (-dy)) x y = eval h f x y ∧
    eval h (.rotate (.rotate f t) (-t)) x y = eval h f x y ∧
    eval h (.rotate f (2 * Real.pi)) x y = eval h f x y ∧
    (m ≠ 0 → eval h (.rescaleX (.rescaleX f m) (1 / m)) x y = eval h f x y ∧
      eval h (.rescaleY (.rescaleY f m) (1 / m)) x y = eval h f x y) := by
  refine ⟨by simp [eval], by simp [eval], by simp [eval], by simp [eval], ?_, ?_, by simp [eval], fun hm => ⟨?_, ?_⟩⟩
  · rw [(C53_compose h f 0 0 dx dy (-dx) (-dy) 1 1 x y).1]
    simp [eval]
  · rw [(C53_compose h f t (-t) 0 0 0 0 1 1 x y).2.1]
    simp [eval]
  · rw [((C53_compose h f 0 0 0 0 0 0 m (1 / m) x y).2.2.1 hm (one_div_ne_zero hm)).1, mul_one_div_cancel hm]
    simp [eval]
  · rw [((C53_compose h f 0 0 0 0 0 0 m (1 / m) x y).2.2.1 hm (one_div_ne_zero hm)).2, mul_one_div_cancel hm]
    simp [eval]

/-- **C53.** Transformations distribute over all operators (with profiles and with numbers) and commute with
`as_complex_profile`: transforming the result gives the same function, and the same dtype, as the result for the
transformed operands. -/
theorem C53_distribute (tr : Transform) (op : PyOp) (f : Prof) (b : PyVal) {r : Prof}
    (hr : pyBinary op (.prof f) b = .ok r) :
    ∃ r', pyBinary op (.prof (tr.apply f)) (match b with | .prof g => .prof (tr.apply g) | b => b) = .ok r' ∧
      kind (tr.apply r) = kind r' ∧
      (∀ h x y, (∀ m, tr = .rescaleX m ∨ tr = .rescaleY m → m ≠ 0) → eval h (tr.apply r) x y = eval h r' x y) ∧
      ∀ h x y, eval h (tr.apply (.asComplex f)) x y = eval h (.asComplex (tr.apply f)) x y := by
  have hasc : ∀ h x y, eval h (tr.apply (.asComplex f)) x y = eval h (.asComplex (tr.apply f)) x y := by
    intro h x y
    cases tr <;> simp only [Transform.apply, eval] <;> split_ifs <;> rfl
  cases b with
  | other => cases op <;> cases hr
  | prof g =>
    cases op <;>
    · injection hr with hr
      subst hr
      refine ⟨_, rfl, ?_, fun h x y hm => ?_, hasc⟩
      · cases tr <;> rfl
      · cases tr with
        | rotate | shift => rfl
        | rescaleX m | rescaleY m => simp [Transform.apply, eval, hm m (by simp)] <;> rfl
  | num c =>
    cases op <;>
    · injection hr with hr
      subst hr
      refine ⟨_, rfl, ?_, fun h x y hm => ?_, hasc⟩
      · cases tr <;> rfl
      · cases tr with
        | rotate | shift => rfl
        | rescaleX m | rescaleY m => simp [Transform.apply, eval, hm m (by simp)] <;> rfl

/-- C53: a rescaling and a product. -/
example (f g : Prof) : (∃ r, pyBinary .mul (.prof f) (.prof g) = .ok r) ∧
    ∀ m, (Transform.rescaleX 2 = .rescaleX m ∨ Transform.rescaleX 2 = .rescaleY m) → m ≠ 0 := by
  refine ⟨⟨_, rfl⟩, ?_⟩
  rintro m (h | h)
  · injection h with h; rw [← h]; norm_num
  · cases h

/-! ## C54 -/

/-- **C54.** -/
theorem C54_phase_factor {h : Heap} {f : Prof} (hk : kind f = .real) {x y : ℝ} {v : ℂ}
    (hv : eval h f x y = some v) :
    ∃ z, eval h (.asComplex f) x y = some z ∧ z = cexp (I * v) ∧ ‖z‖ = 1 ∧ kind (.asComplex f) = .cplx := by
  have him := eval_real h f hk x y v hv
  obtain ⟨t, rfl⟩ : ∃ t : ℝ, v = t := ⟨v.re, Complex.ext rfl him⟩
  refine ⟨_, by simp only [eval, hv, Option.map_some], rfl, ?_, rfl⟩
  rw [mul_comm, Complex.norm_exp_ofReal_mul_I]

/-- **C54.** Sums become products, and the negative becomes the inverse. -/
theorem C54_homomorphism {f g s p n q : Prof} (hs : pyBinary .add (.prof f) (.prof g) = .ok s)
    (hp : pyBinary .mul (.prof (.asComplex f)) (.prof (.asComplex g)) = .ok p)
    (hn : neg f = .ok n) (hq : pyBinary .mul (.prof (.asComplex f)) (.prof (.asComplex n)) = .ok q)
    (h : Heap) (x y : ℝ) :
    eval h (.asComplex s) x y = eval h p x y ∧ ((eval h f x y).isSome → eval h q x y = some 1) := by
  injection hs with hs
  injection hp with hp
  injection hn with hn
  injection hq with hq
  subst hs hp hn hq
  refine ⟨?_, fun hf => ?_⟩
  · simp only [eval]
    cases eval h f x y <;> cases eval h g x y <;> simp [applyAttr, mul_add, Complex.exp_add]
  · obtain ⟨v, hv⟩ := Option.isSome_iff_exists.mp hf
    simp only [eval, hv, applyAttr, PyNum.val, Option.map_some]
    rw [← Complex.exp_add]
    simp

/-- C54: a real profile with a value. -/
example (h : Heap) (x y : ℝ) : kind (.lit (.real 2)) = .real ∧ eval h (.lit (.real 2)) x y = some ((2 : ℝ) : ℂ) :=
  ⟨rfl, rfl⟩

end PySLM2.Profile
