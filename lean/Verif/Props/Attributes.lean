import Verif.Lemmas.Attributes

/-!
# Attributes of profiles (property C163)
-/

noncomputable section

namespace PySLM2.Profile

/-- **C163, what holds** (missing: `LaguerreGaussian` and the attributes `n`, `m`, `normalize`, `extrapolate` of `Zernike`, see
`C163_refuted_laguerre` and `C163_refuted_zernike`). In any program that makes, composes and transforms profiles and assigns attributes, an
object that was constructed behaves like one made just now with the arguments as they were last assigned without an
exception, and every argument can be read under its name. -/
theorem C163_partial (h : Heap) (as : List Act) (k : ℕ) (n : New) (hk : (AWorld.asIf h as).2[k]? = some (some n))
    (hl : n.isLaguerre = false) (hz : n.isZernike = true → NoFlags as) :
    let w := AWorld.run (.start h) as
    w.BehavesAs k n ∧
      ∀ nm v, n.arg nm = some v → (n.isZernike = true → nm = .a ∨ nm = .radius) → w.get k nm = .ok v := by
  intro w
  obtain ⟨f, hf, hm⟩ := (ainv_run h as).relA hk ⟨hl, hz⟩
  refine ⟨⟨f, hf, fun h0 => ?_⟩, fun nm v hv hzn => ?_⟩
  · obtain ⟨h1, g, hr⟩ := matches_run (h0 := h0) hm
    exact ⟨h1, g, hr, matches_eval hm (matches_new hr)⟩
  · simp only [AWorld.get, show w.objs[k]? = some f from hf]
    have hm' : Matches w.heap f n := hm
    generalize w.heap = hp at hm'
    generalize w.dict k = d
    cases n with
    | lg => cases hl
    | const c =>
      cases f <;> try exact hm'.elim
      cases c <;> obtain ⟨rfl, rfl⟩ := hm' <;> cases nm <;> cases hv <;> rfl
    | zernike a radius n m nrm ex =>
      cases f <;> try exact hm'.elim
      obtain ⟨rfl, rfl, -, -, -, -⟩ := hm'
      rcases hzn rfl with rfl | rfl <;> cases hv <;> rfl
    | hg x0 y0 a w n m =>
      cases f <;> try exact hm'.elim
      obtain ⟨rfl, rfl, rfl, rfl, rfl, rfl⟩ := hm'
      cases nm <;> cases hv <;> rfl
    | sg =>
      cases f <;> try exact hm'.elim
      obtain ⟨rfl, rfl, rfl, rfl, rfl⟩ := hm'
      cases nm <;> cases hv <;> rfl
    | rect =>
      cases f <;> try exact hm'.elim
      obtain ⟨rfl, rfl, rfl, rfl⟩ := hm'
      cases nm <;> cases hv <;> rfl
    | circ =>
      cases f <;> try exact hm'.elim
      obtain ⟨rfl, rfl, rfl⟩ := hm'
      cases nm <;> cases hv <;> rfl

/-- Non-trivial case of `C163_partial`: a beam that is made, negated, moved, refused a complex waist and given another one; the negative of it comes along. -/
example (h : Heap) :
    (AWorld.asIf h [.new (.hg 0 0 1 2 1 0), .neg 0, .setattr 0 .x0 (.real 3), .setattr 0 .w (.cplx Complex.I),
      .setattr 0 .w (.real 5)]).2 = [some (.hg 3 0 1 5 1 0), none] := rfl

/-- **C163, read-only arguments.** Assigning the order of a `HermiteGaussian`, or the radius, the indices or the normalization of a `Zernike`, raises and
changes nothing, and so does assigning a complex number to a real argument. -/
theorem C163_readonly (h : Heap) (as : List Act) (k : ℕ) (n : New) (hk : (AWorld.asIf h as).2[k]? = some (some n))
    (nm : Name) (v : PyNum) :
    let w := AWorld.run (.start h) as
    ((∃ x0 y0 a w p q, n = .hg x0 y0 a w p q) ∧ (nm = .n ∨ nm = .m) ∨
      n.isZernike = true ∧ NoFlags as ∧ (nm = .radius ∨ nm = .n ∨ nm = .m ∨ nm = .normalization) ∨
      n.isLaguerre = false ∧ (n.isZernike = true → NoFlags as) ∧ v.kind = .cplx ∧
        (nm = .a ∨ nm = .x0 ∨ nm = .y0 ∨ nm = .w ∨ nm = .wx ∨ nm = .wy ∨ nm = .r ∨ nm = .p) ∧ n.arg nm ≠ none) →
    w.set k nm v = none ∧ w.step (.setattr k nm v) = w := by
  intro w hcase
  suffices hs : w.set k nm v = none by exact ⟨hs, by simp only [AWorld.step, hs, Option.getD_none]⟩
  have hl : n.isLaguerre = false ∧ (n.isZernike = true → NoFlags as) := by
    rcases hcase with ⟨⟨_, _, _, _, _, _, rfl⟩, -⟩ | ⟨hz, hno, -⟩ | ⟨h1, h2, -⟩
    · exact ⟨rfl, fun hc => by cases hc⟩
    · exact ⟨by (cases n <;> first | rfl | exact absurd hz (by simp [New.isZernike])), fun _ => hno⟩
    · exact ⟨h1, h2⟩
  obtain ⟨f, hf, hm⟩ := (ainv_run h as).relA hk hl
  simp only [AWorld.set, show w.objs[k]? = some f from hf]
  have hm' : Matches w.heap f n := hm
  have key : ∃ e, setattr w.heap f (w.dict k) nm v = .error e := by
    generalize w.heap = hp at hm'
    generalize w.dict k = d
    rcases hcase with ⟨⟨_, _, _, _, _, _, rfl⟩, hnm⟩ | ⟨hz, -, hnm⟩ | ⟨-, -, hv, hnm, harg⟩
    · cases f <;> try exact hm'.elim
      rcases hnm with rfl | rfl <;> exact ⟨_, rfl⟩
    · cases n <;> try cases hz
      cases f <;> try exact hm'.elim
      rcases hnm with rfl | rfl | rfl | rfl <;> exact ⟨_, rfl⟩
    · cases v with
      | real r => cases hv
      | cplx z =>
        cases n with
        | lg => cases hl.1
        | const | hg | sg | zernike | rect | circ =>
          cases f <;> try exact hm'.elim
          rcases hnm with rfl | rfl | rfl | rfl | rfl | rfl | rfl | rfl <;> first | exact absurd rfl harg | exact ⟨_, rfl⟩
  obtain ⟨e, he⟩ := key
  simp only [he]

/-- Non-trivial cases of `C163_readonly`: the order of a Hermite-Gaussian, a complex waist, the radius of a Zernike mode. -/
example (h : Heap) :
    (AWorld.run (.start h) [.new (.hg 0 0 1 2 1 0)]).set 0 .n (.real 2) = none ∧
    (AWorld.run (.start h) [.new (.hg 0 0 1 2 1 0)]).set 0 .w (.cplx Complex.I) = none ∧
    ((AWorld.run (.start h) [.new (.hg 0 0 1 2 1 0)]).set 0 .w (.real 3)).isSome := ⟨rfl, rfl, rfl⟩

/-- **C163, Laguerre-Gaussian.** Whatever a program assigns to the attributes of a `LaguerreGaussian`, its values remain those of the
constructor call; no assignment raises, and the attribute reads back as assigned. -/
theorem C163_laguerre (h : Heap) (as : List Act) (k : ℕ) (n : New) (hk : (AWorld.made h as).2[k]? = some (some n))
    (hl : n.isLaguerre = true) :
    let w := AWorld.run (.start h) as
    w.BehavesAs k n ∧ ∀ nm v, ∃ w', w.set k nm v = some w' ∧ w'.get k nm = .ok (.num v.val) ∧ w'.BehavesAs k n := by
  intro w
  obtain ⟨f, hf, hm⟩ := (ainv_run h as).relM hk hl
  have hb : w.BehavesAs k n := by
    refine ⟨f, hf, fun h0 => ?_⟩
    obtain ⟨h1, g, hr⟩ := matches_run (h0 := h0) hm
    exact ⟨h1, g, hr, matches_eval hm (matches_new hr)⟩
  refine ⟨hb, fun nm v => ?_⟩
  have hd := descriptor_laguerre hm hl nm
  refine ⟨⟨w.heap, w.objs, Function.update w.dict k (Function.update (w.dict k) nm (some v))⟩, ?_, ?_, hb⟩
  · simp only [AWorld.set, show w.objs[k]? = some f from hf, setattr, hd]
  · simp only [AWorld.get, show w.objs[k]? = some f from hf, getattr, hd, Function.update_self]

/-- Non-trivial case of `C163_laguerre`. -/
example (h : Heap) : (AWorld.made h [.new (.hg 0 0 1 2 1 0), .new (.lg 0 0 1 1 1 0), .setattr 1 .w (.real 3)]).2 =
    [some (.hg 0 0 1 2 1 0), some (.lg 0 0 1 1 1 0)] := rfl

/-- **C163 is false of `LaguerreGaussian`.** The argument `x0` cannot be read; assigning it does not raise and then reads back as assigned, but the beam
stays where it was. -/
theorem C163_refuted_laguerre (h : Heap) :
    ∃ n : New, (AWorld.run (.start h) [.new (.lg 0 0 1 1 0 0)]).get 0 .x0 = .error .attributeError ∧
      (AWorld.asIf h [.new (.lg 0 0 1 1 0 0), .setattr 0 .x0 (.real 1)]).2 = [some n] ∧
      (let w := AWorld.run (.start h) [.new (.lg 0 0 1 1 0 0), .setattr 0 .x0 (.real 1)]
       w.get 0 .x0 = .ok (.num 1) ∧ n.arg .x0 = some (.num 1) ∧ ¬ w.BehavesAs 0 n) := by
  refine ⟨.lg 1 0 1 1 0 0, rfl, rfl, ?_, by simp [New.arg], ?_⟩
  · simp [AWorld.run, AWorld.step, AWorld.make, World.exec, New.run, newLaguerreGaussian, AWorld.set, AWorld.start, setattr, descriptor,
      AWorld.get, getattr, PyNum.val]
  · rintro ⟨f, hf, hb⟩
    obtain ⟨h1, g, hr, he⟩ := hb h
    cases hr
    cases hf
    have := he 0 0
    simp [eval, lgFunc, allocRe, Function.update_apply, AWorld.run, AWorld.step, AWorld.make, World.exec, New.run, newLaguerreGaussian,
      AWorld.set, AWorld.start, setattr, descriptor, polyval, genlaguerreCoef, Nat.add_assoc] at this
    have h2 := congrArg norm this
    rw [norm_one, Complex.norm_exp] at h2
    have h3 : Real.exp (-1) < 1 := by rw [Real.exp_lt_one_iff]; norm_num
    simp at h2
    linarith

/-- **C163 is false of `Zernike`.** The indices cannot be read; `extrapolate` can be assigned and reads back as assigned, but the values
outside the aperture stay zero. -/
theorem C163_refuted_zernike (h : Heap) :
    (AWorld.run (.start h) [.new (.zernike 1 1 0 0 false false)]).get 0 .n = .error .attributeError ∧
      (AWorld.run (.start h) [.new (.zernike 1 1 0 0 false false)]).get 0 .m = .error .attributeError ∧
      ∃ n : New, (AWorld.asIf h [.new (.zernike 1 1 0 0 false false), .setattr 0 .extrapolate (.real 1)]).2 = [some n] ∧
      (let w := AWorld.run (.start h) [.new (.zernike 1 1 0 0 false false), .setattr 0 .extrapolate (.real 1)]
       w.get 0 .extrapolate = .ok (.num 1) ∧ n.arg .extrapolate = some (.flag true) ∧ ¬ w.BehavesAs 0 n) := by
  have hz : zernikeData 0 0 false = .ok ((zernikeCoef 0 0).reverse, none) := by simp [zernikeData, Except.map]
  refine ⟨?_, ?_, .zernike 1 1 0 0 false true, ?_, ?_, rfl, ?_⟩
  · simp [AWorld.run, AWorld.step, AWorld.make, World.exec, New.run, newZernike, hz, AWorld.start, descriptor, AWorld.get, getattr]
  · simp [AWorld.run, AWorld.step, AWorld.make, World.exec, New.run, newZernike, hz, AWorld.start, descriptor, AWorld.get, getattr]
  · simp [AWorld.asIf, AWorld.asIfStep, AWorld.run, AWorld.step, AWorld.make, World.exec, New.run, newZernike, hz, AWorld.start, AWorld.set, setattr,
      descriptor, New.withArg, PyNum.val]
  · simp [AWorld.run, AWorld.step, AWorld.make, World.exec, New.run, newZernike, hz, AWorld.set, AWorld.start, setattr, descriptor,
      AWorld.get, getattr, PyNum.val]
  · rintro ⟨f, hf, hb⟩
    obtain ⟨h1, g, hr, he⟩ := hb h
    simp [New.run, newZernike, hz] at hr
    obtain ⟨rfl, rfl⟩ := hr
    simp [AWorld.run, AWorld.step, AWorld.make, World.exec, New.run, newZernike, hz, AWorld.set, AWorld.start, setattr, descriptor] at hf
    subst hf
    have := he 2 0
    simp [eval, zernikeFunc, allocRe, AWorld.run, AWorld.step, AWorld.make, World.exec, New.run, newZernike, hz,
      AWorld.set, AWorld.start, setattr, descriptor] at this

end PySLM2.Profile
