import Mathlib.Analysis.SpecialFunctions.Trigonometric.Basic

/-!
# Diffraction by a row of mirrors
-/

noncomputable section

namespace PySLM2.Spec

/-- The modulus of the field that `n` equal sources in a row produce in a direction where neighbours differ in phase by
`2 pi t`: `sin(n pi t)/sin(pi t)`, or `n` if they are in phase. -/
def grating (n : ℕ) (t : ℝ) : ℝ :=
  if Real.sin (Real.pi * t) = 0 then n else |Real.sin (n * (Real.pi * t))| / |Real.sin (Real.pi * t)|

end PySLM2.Spec
