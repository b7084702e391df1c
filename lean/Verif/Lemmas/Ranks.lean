import Verif.Spec.Ranks

namespace PySLM2.Spec

open Ranks

theorem fits_nil (b : Dims) : Fits [] b := ⟨Nat.zero_le _, fun k hk => absurd hk (by simp)⟩

theorem fits_cons {x y : ℕ} {a b : Dims} : Fits (x :: a) (y :: b) ↔ (x = 1 ∨ x = y) ∧ Fits a b := by
  unfold Fits
  constructor
  · rintro ⟨hl, h⟩
    refine ⟨by simpa using h 0 (by simp), by simpa using hl, fun k hk => ?_⟩
    simpa using h (k + 1) (by simpa using hk)
  · rintro ⟨h0, hl, h⟩
    refine ⟨by simpa using hl, fun k hk => ?_⟩
    cases k with
    | zero => simpa using h0
    | succ k => simpa using h k (by simpa using hk)

theorem not_fits_nil {x : ℕ} {a : Dims} : ¬Fits (x :: a) [] := fun h => by simpa using h.1

theorem Fits.refl (a : Dims) : Fits a a := ⟨le_rfl, fun _ _ => .inr rfl⟩

theorem Fits.trans : ∀ {a b c : Dims}, Fits a b → Fits b c → Fits a c
  | [], _, _, _, _ => fits_nil _
  | _ :: _, [], _, h, _ => absurd h not_fits_nil
  | _ :: _, _ :: _, [], _, h => absurd h not_fits_nil
  | x :: a, y :: b, z :: c, h, h' => by
    rw [fits_cons] at h h' ⊢
    refine ⟨?_, h.2.trans h'.2⟩
    rcases h.1 with h1 | h1
    · exact .inl h1
    · subst h1
      exact h'.1

theorem Fits.antisymm : ∀ {a b : Dims}, Fits a b → Fits b a → a = b
  | [], [], _, _ => rfl
  | [], _ :: _, _, h => absurd h not_fits_nil
  | _ :: _, [], h, _ => absurd h not_fits_nil
  | x :: a, y :: b, h, h' => by
    rw [fits_cons] at h h'
    rw [h.2.antisymm h'.2]
    congr 1
    omega

theorem bcastDim_eq {x y z : ℕ} : bcastDim x y = some z ↔
    (x = 1 ∨ x = z) ∧ (y = 1 ∨ y = z) ∧ (z = x ∨ z = y) := by
  unfold bcastDim
  split_ifs with h1 h2 h3
  · simp only [Option.some.injEq]
    omega
  · simp only [Option.some.injEq]
    omega
  · simp only [Option.some.injEq]
    omega
  · simp only [reduceCtorEq, false_iff]
    omega

theorem bcastDim_least {x y z w : ℕ} (h : bcastDim x y = some z) (hx : x = 1 ∨ x = w) (hy : y = 1 ∨ y = w) : z = 1 ∨ z = w := by
  rw [bcastDim_eq] at h
  omega

theorem bcastDim_none {x y w : ℕ} (h : bcastDim x y = none) (hx : x = 1 ∨ x = w) (hy : y = 1 ∨ y = w) : False := by
  unfold bcastDim at h
  split_ifs at h
  omega

theorem bcast_nil_right (a : Dims) : Ranks.bcast a [] = some a := by cases a <;> rfl

theorem bcast_cons (x y : ℕ) (a b : Dims) : Ranks.bcast (x :: a) (y :: b) =
    match bcastDim x y, Ranks.bcast a b with
    | some z, some c => some (z :: c)
    | _, _ => none := rfl

theorem bcast_fits : ∀ {a b c : Dims}, Ranks.bcast a b = some c → Fits a c ∧ Fits b c
  | [], b, c, h => by
    obtain rfl := Option.some.inj (show some b = some c from h)
    exact ⟨fits_nil _, Fits.refl _⟩
  | x :: a, [], c, h => by
    obtain rfl := Option.some.inj (show some (x :: a) = some c from h)
    exact ⟨Fits.refl _, fits_nil _⟩
  | x :: a, y :: b, c, h => by
    rw [bcast_cons] at h
    split at h
    · rename_i z c' hz hc
      obtain rfl := Option.some.inj h
      obtain ⟨h1, h2⟩ := bcast_fits hc
      rw [bcastDim_eq] at hz
      exact ⟨fits_cons.mpr ⟨hz.1, h1⟩, fits_cons.mpr ⟨hz.2.1, h2⟩⟩
    · cases h

theorem bcast_of_fits : ∀ {a b c' : Dims}, Fits a c' → Fits b c' → ∃ c, Ranks.bcast a b = some c ∧ Fits c c'
  | [], b, c', _, h => ⟨b, rfl, h⟩
  | x :: a, [], c', h, _ => ⟨x :: a, rfl, h⟩
  | x :: a, y :: b, [], h, _ => absurd h not_fits_nil
  | x :: a, y :: b, w :: c', h, h' => by
    rw [fits_cons] at h h'
    obtain ⟨c, hc, hf⟩ := bcast_of_fits h.2 h'.2
    rw [bcast_cons, hc]
    rcases e : bcastDim x y with _ | z
    · exact (bcastDim_none e h.1 h'.1).elim
    · exact ⟨z :: c, rfl, fits_cons.mpr ⟨bcastDim_least e h.1 h'.1, hf⟩⟩

/-- The shapes both operands fit have a smallest one exactly if the operands can be broadcast, and it is the result. -/
theorem bcast_iff {a b c : Dims} : Ranks.bcast a b = some c ↔ Least [a, b] c := by
  constructor
  · intro h
    obtain ⟨h1, h2⟩ := bcast_fits h
    refine ⟨by simp [h1, h2], fun c' hc' => ?_⟩
    obtain ⟨c'', hc, hf⟩ := bcast_of_fits (hc' a (by simp)) (hc' b (by simp))
    rw [h] at hc
    obtain rfl := Option.some.inj hc
    exact hf
  · rintro ⟨h1, h2⟩
    obtain ⟨c'', hc, hf⟩ := bcast_of_fits (h1 a (by simp)) (h1 b (by simp))
    obtain ⟨h3, h4⟩ := bcast_fits hc
    rw [hc, hf.antisymm (h2 c'' (by simp [h3, h4]))]

theorem bcast_eq_right {a g : Dims} : Ranks.bcast a g = some g ↔ Fits a g := by
  rw [bcast_iff]
  constructor
  · intro h
    exact h.1 a (by simp)
  · intro h
    exact ⟨by simp [h, Fits.refl], fun c' hc' => hc' g (by simp)⟩

theorem Least.unique {as : List Dims} {c c' : Dims} (h : Least as c) (h' : Least as c') : c = c' :=
  (h.2 c' h'.1).antisymm (h'.2 c h.1)

theorem bcastAll_iff : ∀ {as : List Dims} {c : Dims}, Ranks.bcastAll as = some c ↔ Least as c
  | [], c => by
    show some [] = some c ↔ _
    rw [Option.some.injEq]
    constructor
    · rintro rfl
      exact ⟨by simp, fun c' _ => fits_nil _⟩
    · intro h
      exact ((h.2 [] (by simp)).antisymm (fits_nil _)).symm
  | a :: as, c => by
    show (match Ranks.bcastAll as with | some b => Ranks.bcast a b | none => none) = some c ↔ _
    constructor
    · intro h
      split at h
      · rename_i b hb
        have hb' := bcastAll_iff.mp hb
        have hc := bcast_iff.mp h
        refine ⟨fun a' ha' => ?_, fun c' hc' => ?_⟩
        · rcases List.mem_cons.mp ha' with rfl | ha'
          · exact hc.1 _ (by simp)
          · exact (hb'.1 a' ha').trans (hc.1 b (by simp))
        · refine hc.2 c' fun q hq => ?_
          simp only [List.mem_cons, List.not_mem_nil, or_false] at hq
          rcases hq with rfl | rfl
          · exact hc' _ (by simp)
          · exact hb'.2 c' fun q hq => hc' q (by simp [hq])
      · cases h
    · intro h
      obtain ⟨b, hb⟩ : ∃ b, Ranks.bcastAll as = some b := bcastAll_of_fits fun a' ha' => h.1 a' (by simp [ha'])
      have hb' := bcastAll_iff.mp hb
      rw [hb]
      obtain ⟨c'', hc, hf⟩ := bcast_of_fits (h.1 a (by simp)) (hb'.2 c fun q hq => h.1 q (by simp [hq]))
      obtain ⟨h3, h4⟩ := bcast_fits hc
      show Ranks.bcast a b = some c
      rw [hc, hf.antisymm (h.2 c'' fun q hq => ?_)]
      rcases List.mem_cons.mp hq with rfl | hq
      · exact h3
      · exact (hb'.1 q hq).trans h4
where
  bcastAll_of_fits : ∀ {as : List Dims} {c : Dims}, (∀ a ∈ as, Fits a c) → ∃ b, Ranks.bcastAll as = some b := by
    intro as c h
    have : ∃ b, Ranks.bcastAll as = some b ∧ Fits b c := by
      induction as with
      | nil => exact ⟨[], rfl, fits_nil _⟩
      | cons a as ih =>
        obtain ⟨b, hb, hf⟩ := ih fun q hq => h q (by simp [hq])
        obtain ⟨c'', hc, hf'⟩ := bcast_of_fits (h a (by simp)) hf
        refine ⟨c'', ?_, hf'⟩
        show (match Ranks.bcastAll as with | some b => Ranks.bcast a b | none => none) = some c''
        rw [hb]
        exact hc
    exact ⟨this.choose, this.choose_spec.1⟩

theorem bcastAll_exists {as : List Dims} : (∃ b, Ranks.bcastAll as = some b) ↔ ∃ c, ∀ a ∈ as, Fits a c :=
  ⟨fun ⟨b, hb⟩ => ⟨b, (bcastAll_iff.mp hb).1⟩, fun ⟨_, hc⟩ => bcastAll_iff.bcastAll_of_fits hc⟩

/-! ## Agreement with the model for scalars and matrices -/

theorem dims_injective {a b : Shape} (h : dims a = dims b) : a = b := by
  cases a <;> cases b <;> simp_all [dims]

theorem dims_bcast (a b : Shape) : Ranks.bcast (dims a) (dims b) = (PySLM2.bcast a b).map dims := by
  rcases a with _ | ⟨m, n⟩ <;> rcases b with _ | ⟨m', n'⟩
  · rfl
  · rfl
  · rfl
  · show Ranks.bcast [n, m] [n', m'] = _
    rw [bcast_cons, bcast_cons]
    rcases e1 : bcastDim m m' with _ | z <;> rcases e2 : bcastDim n n' with _ | w <;> simp [PySLM2.bcast, e1, e2, dims, Ranks.bcast]

theorem dims_bcastAll (as : List Shape) : Ranks.bcastAll (as.map dims) = (PySLM2.bcastAll as).map dims := by
  induction as with
  | nil => rfl
  | cons a as ih =>
    show (match Ranks.bcastAll (as.map dims) with | some b => Ranks.bcast (dims a) b | none => none) = _
    rw [ih]
    rcases e : PySLM2.bcastAll as with _ | b
    · simp [PySLM2.bcastAll, e]
    · simpa [PySLM2.bcastAll, e] using dims_bcast a b

theorem dims_bcast_eq (a b c : Shape) : Ranks.bcast (dims a) (dims b) = some (dims c) ↔ PySLM2.bcast a b = some c := by
  rw [dims_bcast]
  rcases PySLM2.bcast a b with _ | d
  · simp
  · simp only [Option.map_some, Option.some.injEq]
    exact ⟨dims_injective, fun h => by rw [h]⟩

end PySLM2.Spec
