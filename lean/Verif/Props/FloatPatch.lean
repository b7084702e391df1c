import Verif.Model.FloatPatch
import Verif.Lemmas.Float
import Verif.Lemmas.FloatProfile
import Verif.Lemmas.DmdHistory

/-!
# C168: the disc of circular_patch in floating point
-/

noncomputable section

namespace PySLM2.DMD

open Classical Lib Spec Profile

variable {t : ℕ} {rnd py : ℝ → ℝ}

/-- **C168.** Centres on multiples of `1 / 2 ^ s` of a pixel and diameters that are multiples of `2 / 2 ^ s` pixels, up to a size: in arithmetic with `t`
significant bits the disc has exactly the mirrors closer to the centre than half the diameter. -/
theorem C168_exact (hr : RoundsTo t rnd) (hp : RoundsTo t py) (ht : 1 ≤ t) {Nx Ny s : ℕ} {p q c : ℤ}
    (hi : |p| + Ny * 2 ^ s ≤ 2 ^ t) (hj : |q| + Nx * 2 ^ s ≤ 2 ^ t) (hc : 4 * c ^ 2 ≤ 2 ^ t)
    {a b : ℕ} (ha : a < Ny) (hb : b < Nx) :
    circularMaskR rnd py (p / 2 ^ s) (q / 2 ^ s) (2 * c / 2 ^ s) a b ↔
      DMD.dist a b (p / 2 ^ s) (q / 2 ^ s) < |(2 * c / 2 ^ s : ℝ)| / 2 := by
  rw [← circularMask_iff]
  have dy : ∀ {R : ℝ → ℝ}, RoundsTo t R → ∀ (z : ℤ) (e : ℕ), |z| ≤ 2 ^ t → R (z / 2 ^ e) = z / 2 ^ e := by
    intro R hR z e hz
    exact hR.exact _ ⟨z, -e, hz, by rw [zpow_neg, zpow_natCast]; rfl⟩
  have hs : (0 : ℝ) < 2 ^ s := by positivity
  have hsz : (1 : ℤ) ≤ 2 ^ s := one_le_pow₀ (by norm_num)
  -- the difference of the indices
  have diff : ∀ {k : ℕ} {N : ℕ} {z : ℤ}, k < N → |z| + N * 2 ^ s ≤ 2 ^ t →
      rnd (rnd (k : ℝ) - rnd (z / 2 ^ s)) = ((k * 2 ^ s - z : ℤ) : ℝ) / 2 ^ s := by
    intro k N z hk hz
    have hk' : (k : ℤ) ≤ N := by exact_mod_cast hk.le
    have h0 := abs_nonneg z
    have hk2 : (k : ℤ) * 2 ^ s ≤ N * 2 ^ s := mul_le_mul_of_nonneg_right hk' (by positivity)
    have hk3 : (k : ℤ) ≤ k * 2 ^ s := le_mul_of_one_le_right (by positivity) hsz
    have hk0 : (0 : ℤ) ≤ k := by positivity
    have e1 : rnd (k : ℝ) = k := by
      have := hr.int (z := (k : ℤ)) (by rw [abs_of_nonneg hk0]; linarith)
      exact_mod_cast this
    have e2 : rnd ((z : ℝ) / 2 ^ s) = z / 2 ^ s := dy hr z s (by nlinarith)
    rw [e1, e2, show (k : ℝ) - z / 2 ^ s = ((k * 2 ^ s - z : ℤ) : ℝ) / 2 ^ s by push_cast; field_simp]
    refine dy hr _ s ?_
    calc |(k : ℤ) * 2 ^ s - z| ≤ |(k : ℤ) * 2 ^ s| + |z| := abs_sub _ _
      _ ≤ 2 ^ t := by rw [abs_of_nonneg (by positivity)]; linarith
  have hrad : rnd (py (py (2 * c / 2 ^ s / 2) ^ 2)) = ((c ^ 2 : ℤ) : ℝ) / 2 ^ (2 * s) := by
    have h1 : |c| ≤ 2 ^ t := by nlinarith [sq_abs c, abs_nonneg c, sq_nonneg (|c| - 1)]
    have h2 : |c ^ 2| ≤ 2 ^ t := by rw [abs_of_nonneg (sq_nonneg _)]; nlinarith [sq_nonneg c]
    rw [show (2 * c / 2 ^ s / 2 : ℝ) = c / 2 ^ s by ring, dy hp c s h1,
      show ((c : ℝ) / 2 ^ s) ^ 2 = ((c ^ 2 : ℤ) : ℝ) / 2 ^ (2 * s) by push_cast; rw [div_pow, pow_mul']]
    rw [dy hp _ _ h2, dy hr _ _ h2]
  unfold circularMaskR circularMask
  rw [diff hb hj, diff ha hi, hrad]
  set n : ℤ := b * 2 ^ s - q with hn
  set m : ℤ := a * 2 ^ s - p with hm
  have e1 : ((b : ℝ) - q / 2 ^ s) ^ 2 + ((a : ℝ) - p / 2 ^ s) ^ 2 = ((n ^ 2 + m ^ 2 : ℤ) : ℝ) / 2 ^ (2 * s) := by
    rw [hn, hm, pow_mul']
    push_cast
    field_simp
  have e2 : (2 * (c : ℝ) / 2 ^ s / 2) ^ 2 = ((c ^ 2 : ℤ) : ℝ) / 2 ^ (2 * s) := by
    rw [pow_mul']
    push_cast
    field_simp
  have e3 : ∀ k : ℤ, ((k : ℝ) / 2 ^ s) ^ 2 = ((k ^ 2 : ℤ) : ℝ) / 2 ^ (2 * s) := by
    intro k
    push_cast
    rw [div_pow, pow_mul']
  rw [e1, e2, e3, e3]
  have hS : (0 : ℝ) < 2 ^ (2 * s) := by positivity
  have hU : (2 : ℝ) ≤ 2 ^ t := by
    calc (2 : ℝ) = 2 ^ 1 := by norm_num
      _ ≤ 2 ^ t := pow_le_pow_right₀ (by norm_num) ht
  by_cases hsmall : n ^ 2 + m ^ 2 ≤ 2 ^ t
  · have hn2 : |n ^ 2| ≤ 2 ^ t := by rw [abs_of_nonneg (sq_nonneg _)]; nlinarith [sq_nonneg m]
    have hm2 : |m ^ 2| ≤ 2 ^ t := by rw [abs_of_nonneg (sq_nonneg _)]; nlinarith [sq_nonneg n]
    rw [dy hr _ _ hn2, dy hr _ _ hm2, ← add_div, ← Int.cast_add, dy hr _ _ (by rw [abs_of_nonneg (by positivity)]; exact hsmall)]
  · push Not at hsmall
    have hbig : (2 : ℝ) ^ t < ((n ^ 2 + m ^ 2 : ℤ) : ℝ) := by exact_mod_cast hsmall
    have hcr : 4 * ((c ^ 2 : ℤ) : ℝ) ≤ 2 ^ t := by exact_mod_cast hc
    have half : ∀ {x : ℝ}, 0 ≤ x → x / 2 ≤ rnd x := by
      intro x hx
      have := (abs_le.mp (hr.err x)).1
      rw [abs_of_nonneg hx] at this
      have : x / 2 ^ t ≤ x / 2 := div_le_div_of_nonneg_left hx (by norm_num) hU
      linarith
    have hn0 : (0 : ℝ) ≤ ((n ^ 2 : ℤ) : ℝ) / 2 ^ (2 * s) := div_nonneg (by exact_mod_cast sq_nonneg n) hS.le
    have hm0 : (0 : ℝ) ≤ ((m ^ 2 : ℤ) : ℝ) / 2 ^ (2 * s) := div_nonneg (by exact_mod_cast sq_nonneg m) hS.le
    have h1 := half hn0
    have h2 := half hm0
    have h3 := half (x := rnd (((n ^ 2 : ℤ) : ℝ) / 2 ^ (2 * s)) + rnd (((m ^ 2 : ℤ) : ℝ) / 2 ^ (2 * s))) (by linarith)
    have h4 : ((c ^ 2 : ℤ) : ℝ) / 2 ^ (2 * s) ≤ ((n ^ 2 + m ^ 2 : ℤ) : ℝ) / 2 ^ (2 * s) / 4 := by
      rw [div_right_comm]
      refine div_le_div_of_nonneg_right ?_ hS.le
      linarith
    have h5 : ((n ^ 2 + m ^ 2 : ℤ) : ℝ) / 2 ^ (2 * s) = ((n ^ 2 : ℤ) : ℝ) / 2 ^ (2 * s) + ((m ^ 2 : ℤ) : ℝ) / 2 ^ (2 * s) := by
      rw [← add_div, ← Int.cast_add]
    constructor
    · intro h; exfalso; linarith
    · intro h; exfalso; linarith

/-- **C168.** Under the same conditions `circular_patch` leaves in every mirror what exact arithmetic of the disc leaves there, and raises the
same exceptions. -/
theorem C168_patch (hr : RoundsTo t rnd) (hp : RoundsTo t py) (ht : 1 ≤ t) (d : DMD) {s : ℕ} {p q c : ℤ}
    (hi : |p| + d.slm.Ny * 2 ^ s ≤ 2 ^ t) (hj : |q| + d.slm.Nx * 2 ^ s ≤ 2 ^ t) (hc : 4 * c ^ 2 ≤ 2 ^ t)
    (h : Heap) (cur : StateArr) (amp phaseIn phaseOut : ProfArg) (method : String) (kw : Kwargs) (draw : ℕ → ℕ → ℝ)
    (hcur : cur.shape = .mat d.slm.Ny d.slm.Nx) :
    let o := d.circularPatchR rnd py h cur (p / 2 ^ s) (q / 2 ^ s) amp phaseIn phaseOut (2 * c / 2 ^ s) method kw draw
    let o' := d.circularPatch h cur (p / 2 ^ s) (q / 2 ^ s) amp phaseIn phaseOut (2 * c / 2 ^ s) method kw draw
    o.result = o'.result ∧ (o.state cur).Same (o'.state cur) := by
  have hm : ∀ a < d.slm.Ny, ∀ b < d.slm.Nx, (circularMaskR rnd py (p / 2 ^ s) (q / 2 ^ s) (2 * c / 2 ^ s) a b ↔
      circularMask (p / 2 ^ s) (q / 2 ^ s) (2 * c / 2 ^ s) a b) := fun a ha b hb => by
    rw [C168_exact hr hp ht hi hj hc ha hb, circularMask_iff]
  have same : ∀ x : StateArr, x.shape = .mat d.slm.Ny d.slm.Nx → x.Same x := by
    intro x hx
    cases x with
    | bool y => exact ⟨rfl, by rw [show y.shape = _ from hx]; exact fun _ _ _ _ => rfl⟩
    | float y => exact ⟨rfl, by rw [show y.shape = _ from hx]; exact fun _ _ _ _ => rfl⟩
  intro o o'
  simp only [o, o', circularPatchR, circularPatch]
  cases hg : d.gratingOfArgs h amp phaseIn phaseOut method kw draw with
  | error e => exact ⟨rfl, same _ hcur⟩
  | ok g =>
    by_cases hsh : g.shape = .mat d.slm.Ny d.slm.Nx ∧ cur.shape = .mat d.slm.Ny d.slm.Nx
    · simp only [if_pos hsh, Outcome.state]
      refine ⟨trivial, ?_⟩
      cases cur with
      | bool y =>
        cases g with
        | bool z => exact ⟨rfl, by rw [show y.shape = _ from hcur]; exact fun a ha b hb => by simp only [hm a ha b hb]⟩
        | float z => exact ⟨rfl, by rw [show y.shape = _ from hcur]; exact fun a ha b hb => by simp only [hm a ha b hb]⟩
      | float y =>
        cases g with
        | bool z => exact ⟨rfl, by rw [show y.shape = _ from hcur]; exact fun a ha b hb => by simp only [hm a ha b hb]⟩
        | float z => exact ⟨rfl, by rw [show y.shape = _ from hcur]; exact fun a ha b hb => by simp only [hm a ha b hb]⟩
    · simp only [if_neg hsh]
      exact ⟨trivial, same _ hcur⟩

/-- **C168.** For any centre and diameter, in arithmetic with relative error `u`: a mirror is in the disc of the rounded centre exactly if it should be,
except if it is close to the edge. -/
theorem C168_edge {u : ℝ} (hr : RelErr u rnd) (hp : RelErr u py) (hu : u ≤ 1 / 100) {i j dia : ℝ} {a b : ℕ} (ha : rnd a = a) (hb : rnd b = b)
    (h : 10 * u * (dia / 2) ^ 2 ≤ |DMD.dist a b (rnd i) (rnd j) ^ 2 - (dia / 2) ^ 2|) :
    circularMaskR rnd py i j dia a b ↔ DMD.dist a b (rnd i) (rnd j) < |dia| / 2 := by
  rw [← circularMask_iff]
  have hu0 := hr.nonneg
  have hd : DMD.dist a b (rnd i) (rnd j) ^ 2 = (a - rnd i) ^ 2 + (b - rnd j) ^ 2 := Real.sq_sqrt (by positivity)
  rw [hd, add_comm] at h
  have sq : ∀ {c x x' : ℝ} {R : ℝ → ℝ}, RelErr u R → 0 ≤ c → Near c x x' → Near (2 * c + u) (x ^ 2) (R (x' ^ 2)) := by
    intro c x x' R hR hc hx
    have := (hx.mul hx hc hc).trans (hR.near (x' * x')) hu0
    rw [pow_two, pow_two, two_mul]
    exact this
  have h1 : Near (4 * u) (((b : ℝ) - rnd j) ^ 2 + ((a : ℝ) - rnd i) ^ 2)
      (rnd (rnd (rnd (rnd b - rnd j) ^ 2) + rnd (rnd (rnd a - rnd i) ^ 2))) := by
    rw [ha, hb]
    have k := (near_add (sq hr hu0 (hr.near ((b : ℝ) - rnd j))) (sq hr hu0 (hr.near ((a : ℝ) - rnd i))) (sq_nonneg _) (sq_nonneg _)).trans
      (hr.near _) hu0
    exact k.mono (by linarith)
  have h2 : Near (4 * u) ((dia / 2) ^ 2) (rnd (py (py (dia / 2) ^ 2))) := ((sq hp hu0 (hp.near (dia / 2))).trans (hr.near _) hu0).mono (by linarith)
  unfold circularMaskR circularMask
  generalize rnd (rnd (rnd (rnd b - rnd j) ^ 2) + rnd (rnd (rnd a - rnd i) ^ 2)) = Q at h1 ⊢
  generalize rnd (py (py (dia / 2) ^ 2)) = R at h2 ⊢
  have hq0 : 0 ≤ ((b : ℝ) - rnd j) ^ 2 + ((a : ℝ) - rnd i) ^ 2 := by positivity
  have hr0 : 0 ≤ (dia / 2) ^ 2 := by positivity
  generalize ((b : ℝ) - rnd j) ^ 2 + ((a : ℝ) - rnd i) ^ 2 = q at h h1 hq0 ⊢
  generalize (dia / 2) ^ 2 = r at h h2 hr0 ⊢
  have hb := exp_rel_le (c := 4 * u) (by linarith) (by linarith)
  unfold Near at h1 h2
  rw [Real.norm_eq_abs, Real.norm_of_nonneg hq0] at h1
  rw [Real.norm_eq_abs, Real.norm_of_nonneg hr0] at h2
  have h3 := abs_le.mp h1
  have h4 := abs_le.mp h2
  have h5 : (Real.exp (4 * u) - 1) * q ≤ 14 / 3 * u * q := mul_le_mul_of_nonneg_right (by linarith) hq0
  have h6 : (Real.exp (4 * u) - 1) * r ≤ 14 / 3 * u * r := mul_le_mul_of_nonneg_right (by linarith) hr0
  have p1 := mul_nonneg hu0 hq0
  have p2 := mul_nonneg hu0 hr0
  constructor
  · intro hlt
    by_contra hcon
    push Not at hcon
    rw [abs_of_nonneg (by linarith)] at h
    have : u * (q - r - 10 * u * r) ≥ 0 := mul_nonneg hu0 (by linarith)
    nlinarith [h3.1, h4.2, mul_nonneg p2 (sub_nonneg.mpr hu)]
  · intro hlt
    rw [abs_of_neg (by linarith)] at h
    rcases hu0.eq_or_lt with hz | hz
    · subst hz
      simp only [mul_zero, zero_mul, Real.exp_zero, sub_self] at h3 h4
      linarith [h3.2, h4.1]
    · have hrp : 0 < r := by linarith
      nlinarith [h3.2, h4.1, mul_pos hz hrp, mul_nonneg p2 (sub_nonneg.mpr hu)]

/-- C168: half-pixel centres and whole diameters up to 2048 pixels are within the conditions in single precision on a DLP9500. -/
example (p q c : ℤ) (hp : |p| ≤ 2 ^ 20) (hq : |q| ≤ 2 ^ 20) (hc : |c| ≤ 2048) :
    |p| + (1080 : ℕ) * 2 ^ 1 ≤ 2 ^ 24 ∧ |q| + (1920 : ℕ) * 2 ^ 1 ≤ 2 ^ 24 ∧ 4 * c ^ 2 ≤ 2 ^ 24 ∧ RoundsTo 24 (nearest 24) ∧
      (p : ℝ) / 2 ^ 1 = p / 2 ∧ (2 * c / 2 ^ 1 : ℝ) = c := by
  refine ⟨by norm_num at hp ⊢; linarith, by norm_num at hq ⊢; linarith, ?_, nearest_roundsTo (by norm_num), by norm_num, by ring⟩
  rw [← sq_abs]
  nlinarith [abs_nonneg c]

/-- C168_edge: the hypotheses hold for a centre that is not representable, in single precision. -/
example : RelErr (1 / 2 ^ 24) (nearest 24) ∧ (1 / 2 ^ 24 : ℝ) ≤ 1 / 100 ∧ nearest 24 (1 : ℕ) = (1 : ℕ) ∧ nearest 24 (0 : ℕ) = (0 : ℕ) ∧
    10 * (1 / 2 ^ 24) * ((4 : ℝ) / 2) ^ 2 ≤ |DMD.dist (1 : ℕ) (0 : ℕ) (nearest 24 (1 / 3)) (nearest 24 (1 / 3)) ^ 2 - (4 / 2) ^ 2| := by
  have H := nearest_roundsTo (t := 24) (by norm_num)
  have h3 := abs_le.mp (H.err (1 / 3))
  have e : DMD.dist (1 : ℕ) (0 : ℕ) (nearest 24 (1 / 3)) (nearest 24 (1 / 3)) ^ 2 =
      ((1 : ℕ) - nearest 24 (1 / 3)) ^ 2 + ((0 : ℕ) - nearest 24 (1 / 3)) ^ 2 := Real.sq_sqrt (by positivity)
  refine ⟨fun x => by rw [one_div, inv_mul_eq_div]; exact H.err x, by norm_num, ?_, ?_, ?_⟩
  · have := H.int (z := 1) (by norm_num)
    exact_mod_cast this
  · have := H.int (z := 0) (by norm_num)
    exact_mod_cast this
  · rw [e]
    generalize nearest 24 (1 / 3) = z at h3 ⊢
    norm_num at h3 ⊢
    have h4 : 0 ≤ z ∧ z ≤ 1 := ⟨by linarith, by linarith⟩
    rw [abs_of_neg (by nlinarith)]
    nlinarith

end PySLM2.DMD
