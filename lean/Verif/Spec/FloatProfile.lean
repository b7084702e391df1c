import Verif.Model.FloatProfile
import Verif.Spec.FloatSim

/-!
# What is assumed of the arithmetic of profiles
-/

noncomputable section

open Complex

namespace PySLM2.Spec

open Profile

/-- Arithmetic with relative error at most `u` per operation, and library functions within `v`: relative to the result for `exp`, `**`
and `sqrt`, absolute for the others (the angle at other points than the origin, and up to whole turns). -/
structure ProfPrecise (u v : ℝ) (F : ProfArith) : Prop where
  rnd : RelErr u F.rnd
  py : RelErr u F.py
  exp : ∀ x, |F.exp x - Real.exp x| ≤ v * Real.exp x
  pow : ∀ x p, 0 ≤ x → 0 ≤ p → |F.pow x p - x ^ p| ≤ v * x ^ p
  sqrt : ∀ x, 0 ≤ x → |F.sqrt x - Real.sqrt x| ≤ v * Real.sqrt x
  atan2 : ∀ x y, (x, y) ≠ (0, 0) → ∃ k : ℤ, |F.atan2 y x - (Complex.arg ⟨x, y⟩ + k * (2 * Real.pi))| ≤ v
  atan2_le : ∀ x y, |F.atan2 y x| ≤ 4
  cos : ∀ x, |F.cos x - Real.cos x| ≤ v
  sin : ∀ x, |F.sin x - Real.sin x| ≤ v
  expC : ∀ x : ℝ, ‖F.expC (-I * x) - Complex.exp (-I * x)‖ ≤ v

/-- The polynomial with coefficients `c`, highest power first. -/
def horner : List ℝ → ℝ → ℝ
  | [], _ => 0
  | c :: cs, x => c * x ^ cs.length + horner cs x

/-- The coefficients `c'` are the coefficients `c` up to `g` times the bounds `C` of their sizes (third, second and first list). -/
def CoefClose (g : ℝ) : List ℝ → List ℝ → List ℝ → Prop
  | [], [], [] => True
  | C :: Cs, c :: cs, c' :: cs' => |c| ≤ C ∧ |c' - c| ≤ g * C ∧ CoefClose g Cs cs cs'
  | _, _, _ => False

end PySLM2.Spec
