import Verif.Model.VortexTarget
import Verif.Props.FloatVortex
import Verif.Props.NanIfta
import Verif.Props.Spectral

/-!
# C188: vortex beams of high charge as targets of a DMD
-/

noncomputable section

open Complex

namespace PySLM2.DMD

open Spec Profile

variable {u s v Ω₁ Ω₂ E₁ E₂ : ℝ} {F : RangeArith}

/-- Half the width of the image plane is at least the distance of the beam from one of its edges. -/
theorem far_column {s : SLM} {g : Tensor ℝ × Tensor ℝ} (hg : s.imageGrid = .ok g) (hNx : 0 < s.Nx) {X : ℕ → ℕ → ℝ} {δ D x0 : ℝ}
    (hX : ∀ i j, |X i j - g.1.get i j| ≤ δ) (hD : 2 * (D + δ) ≤ (s.Nx - 1) * |s.scaling / (s.Nx * s.ps)|) (i : ℕ) :
    ∃ j < s.Nx, D ≤ |X i j - x0| := by
  have hI := imageGridOf_isImageGrid _ _ _ _ g hg
  have h0 := Sim.imageGrid_x hI i hNx
  have h1 := Sim.imageGrid_x hI i (Nat.sub_lt hNx one_pos)
  have e0 := hX i 0
  have e1 := hX i (s.Nx - 1)
  rw [Nat.cast_pred hNx] at h1
  by_contra hc
  push Not at hc
  have c0 := hc 0 hNx
  have c1 := hc (s.Nx - 1) (Nat.sub_lt hNx one_pos)
  have hd : (s.Nx - 1) * |s.scaling / (s.Nx * s.ps)| = |g.1.get i (s.Nx - 1) - g.1.get i 0| := by
    rw [h0, h1, ← sub_mul, abs_mul]
    congr 1
    have : (1 : ℝ) ≤ s.Nx := by exact_mod_cast hNx
    rw [abs_of_nonneg] <;> push_cast <;> linarith
  rw [hd] at hD
  rw [abs_le] at e0 e1
  rw [abs_lt] at c0 c1
  have : |g.1.get i (s.Nx - 1) - g.1.get i 0| < 2 * (D + δ) := abs_lt.mpr ⟨by linarith, by linarith⟩
  linarith

/-- The profile is NaN at a pixel of the image plane. -/
theorem vortex_hasNan (H : Ranged (1 / 2 ^ 24) (1 / 2 ^ 126) v (2 ^ 127) (2 ^ 128) 87 104 F) (hv0 : 0 ≤ v) (hv : v ≤ 1 / 1000) (s : SLM)
    {g : Tensor ℝ × Tensor ℝ} (hg : s.imageGrid = .ok g) (hNx : 0 < s.Nx) (hNy : 0 < s.Ny) {x0 y0 a w δ : ℝ} (hw : 1e-9 ≤ w) (hw1 : w ≤ 1)
    {X Y : ℕ → ℕ → ℝ} (hX : ∀ i j, |X i j - g.1.get i j| ≤ δ)
    (hwide : 2 * (11 * w + δ) ≤ (s.Nx - 1) * |s.scaling / (s.Nx * s.ps)|)
    {l : ℤ} (hl : 33 ≤ |l|) (cl : List ℝ) : HasNan s.Ny s.Nx (vortexN F x0 y0 a w l cl X Y) := by
  have hw0 : 0 < w := by norm_num at hw; linarith
  obtain ⟨j, hj, hfar⟩ := far_column hg hNx hX (x0 := x0) hwide 0
  have hn : 33 ≤ l.natAbs := by rw [Int.abs_eq_natAbs] at hl; omega
  have hb : (1 + v) * 2 ^ 128 ≤ (1.38 * (11 * w) / w) ^ l.natAbs := by
    have e : 1.38 * (11 * w) / w = 15.18 := by field_simp; norm_num
    rw [e]
    calc (1 + v) * 2 ^ 128 ≤ (1 + 1 / 1000) * 2 ^ 128 := by gcongr
      _ ≤ (15.18 : ℝ) ^ 33 := by norm_num
      _ ≤ _ := pow_le_pow_right₀ (by norm_num) hn
  have hw2 : (1e-9 : ℝ) ^ 2 ≤ w ^ 2 := pow_le_pow_left₀ (by norm_num) hw 2
  refine ⟨0, hNy, j, hj, ?_⟩
  unfold vortexN
  rw [C173_nan H (by norm_num) (by norm_num) (by norm_num) (by norm_num) hv0 hv (by norm_num) (by norm_num) (by norm_num) hw0 ?_ ?_ ?_ le_rfl hb cl
    (.inl hfar)]
  · rfl
  · refine le_trans ?_ (div_le_div_of_nonneg_right hw (by norm_num)); norm_num
  · refine le_trans ?_ (div_le_div_of_nonneg_right hw2 (by norm_num)); norm_num
  · refine lt_of_le_of_lt (pow_le_one₀ hw0.le hw1) ?_; norm_num

/-- **C188 (refuted)**: a vortex target of charge 33 or more whose waist is below 1/22 of the width of the image plane, computed in `float32`: whatever the
input, the window and the method, no mirror is turned on (method `ideal`: every entry is NaN), and the efficiency that is returned is NaN. -/
theorem C188_refuted (H : Ranged (1 / 2 ^ 24) (1 / 2 ^ 126) v (2 ^ 127) (2 ^ 128) 87 104 F) (hv0 : 0 ≤ v) (hv : v ≤ 1 / 1000) (d : DMD)
    {g : Tensor ℝ × Tensor ℝ} (hg : d.slm.imageGrid = .ok g) (hNx : 0 < d.slm.Nx) (hNy : 0 < d.slm.Ny) {x0 y0 a w δ : ℝ} (hw : 1e-9 ≤ w) (hw1 : w ≤ 1)
    {X Y : ℕ → ℕ → ℝ} (hX : ∀ i j, |X i j - g.1.get i j| ≤ δ)
    (hwide : 2 * (11 * w + δ) ≤ (d.slm.Nx - 1) * |d.slm.scaling / (d.slm.Nx * d.slm.ps)|)
    {l : ℤ} (hl : 33 ≤ |l|) (cl : List ℝ) (inp : ℕ → ℕ → Option ℂ) (window : Option (ℕ → ℕ → Option ℂ)) (red : (ℕ → ℕ → XR) → XR) :
    (∀ (r : ℝ) (draw : ℕ → ℕ → ℝ) (W : ℕ → ℕ → Option ℂ) (steps : ℕ) (t : ℝ) (i j : ℕ),
      calcSimpleN red d inp (vortexN F x0 y0 a w l cl X Y) window i j = false ∧
      calcRandomN red d r draw inp (vortexN F x0 y0 a w l cl X Y) window i j = false ∧
      calcIdealN red d inp (vortexN F x0 y0 a w l cl X Y) window i j = .nan ∧
      (steps ≠ 0 → calcIftaN red d inp (vortexN F x0 y0 a w l cl X Y) window W steps t i j = false)) ∧
    (Maximum d.slm.Ny d.slm.Nx red → Propagates d.slm.Ny d.slm.Nx red → d.slm.wavelength * d.slm.focal ≠ 0 →
      calcEtaN red d inp (vortexN F x0 y0 a w l cl X Y) window = .ok .nan) := by
  have hnan := vortex_hasNan H hv0 hv d.slm hg hNx hNy hw hw1 (x0 := x0) (y0 := y0) (a := a) (Y := Y) hX hwide hl cl
  refine ⟨fun r draw W steps t i k => ?_, fun hm hp hsc => ((C174_eta hm hp hNx hNy hsc _ _ _).1).mpr (.inl hnan)⟩
  have h := C174_target red d inp _ window hnan r draw i k
  exact ⟨h.1, h.2.1, h.2.2, fun hs => C182_calculate red inp _ window W hs t hNx hNy (.inl hnan) i k⟩

/-- **C188 (refuted)** for an LCOS SLM: such a target makes the hologram NaN at every pixel, for both methods, whatever the input, the initial phases, the
signal window and the mixing factor, from the first iteration on. -/
theorem C188_hologram (H : Ranged (1 / 2 ^ 24) (1 / 2 ^ 126) v (2 ^ 127) (2 ^ 128) 87 104 F) (hv0 : 0 ≤ v) (hv : v ≤ 1 / 1000) (s : SLM)
    {g : Tensor ℝ × Tensor ℝ} (hg : s.imageGrid = .ok g) (hNx : 0 < s.Nx) (hNy : 0 < s.Ny) {x0 y0 a w δ : ℝ} (hw : 1e-9 ≤ w) (hw1 : w ≤ 1)
    {X Y : ℕ → ℕ → ℝ} (hX : ∀ i j, |X i j - g.1.get i j| ≤ δ)
    (hwide : 2 * (11 * w + δ) ≤ (s.Nx - 1) * |s.scaling / (s.Nx * s.ps)|)
    {l : ℤ} (hl : 33 ≤ |l|) (cl : List ℝ) (inp window : ℕ → ℕ → Option ℂ) (m : ℝ) (draw : ℕ → ℕ → ℝ) {steps : ℕ} (hs : steps ≠ 0) (i j : ℕ) :
    LCOS.gsN s inp (vortexRealN F x0 y0 a w l cl X Y) draw steps i j = none ∧
    LCOS.mrafN s inp (vortexRealN F x0 y0 a w l cl X Y) window m draw steps i j = none := by
  obtain ⟨p, hp, q, hq, h⟩ := vortex_hasNan H hv0 hv s hg hNx hNy hw hw1 (x0 := x0) (y0 := y0) (a := a) (Y := Y) hX hwide hl cl
  have hn : HasNan s.Ny s.Nx (vortexRealN F x0 y0 a w l cl X Y) := ⟨p, hp, q, hq, by rw [vortexRealN, h]; rfl⟩
  exact ⟨(LCOS.C175_gs s inp _ draw hs).1 (.inr hn) i j, (LCOS.C175_mraf s inp _ window m draw hs).1 (.inr (.inl hn)) i j⟩

/-- **C188 (partial)**: a vortex target whose largest intermediate value, over the circle of radius `R` around its centre that holds the whole image plane, is
below the largest number of the format is free of NaN; then the efficiency that is returned is NaN only if the window or the input is NaN somewhere.
What is missing: targets beyond that range, for which it is false. -/
theorem C188_partial (H : Ranged u s v Ω₁ Ω₂ E₁ E₂ F) (hu0 : 0 ≤ u) (hu : u ≤ 1 / 1000) (hs0 : 0 ≤ s) (hs : s ≤ 1 / 1000) (hv0 : 0 ≤ v)
    (hv : v ≤ 1 / 1000) (hΩ : 1000 ≤ Ω₁) (d : DMD) {x0 y0 a w R : ℝ} (hw : 0 < w) (hsw : s ≤ w / 1000) (hsw2 : s ≤ w ^ 2 / 1000) (hwR : w ≤ R)
    (hRΩ : 2 * R < Ω₁) (hRΩ2 : 3 * R ^ 2 < Ω₁) (hRw : 3 * (R / w) ^ 2 < Ω₁) {l : ℤ} {cl : List ℝ} (hcl : cl ≠ [])
    (hl : 4 * max |a| 1 * (1.5 * R / w) ^ l.natAbs * largestPoly cl (2.1 * (R / w) ^ 2) < Ω₁)
    {X Y : ℕ → ℕ → ℝ} (hR : ∀ i < d.slm.Ny, ∀ j < d.slm.Nx, (X i j - x0) ^ 2 + (Y i j - y0) ^ 2 ≤ R ^ 2) :
    ¬ HasNan d.slm.Ny d.slm.Nx (vortexN F x0 y0 a w l cl X Y) ∧
    ∀ (inp : ℕ → ℕ → Option ℂ) (window : Option (ℕ → ℕ → Option ℂ)) (red : (ℕ → ℕ → XR) → XR), Maximum d.slm.Ny d.slm.Nx red →
      Propagates d.slm.Ny d.slm.Nx red → 0 < d.slm.Nx → 0 < d.slm.Ny → d.slm.wavelength * d.slm.focal ≠ 0 →
      (∀ i < d.slm.Ny, ∀ j < d.slm.Nx, inp i j ≠ none ∧ ¬ WindowNan window i j) →
      calcEtaN red d inp (vortexN F x0 y0 a w l cl X Y) window ≠ .ok .nan := by
  have hno : ¬ HasNan d.slm.Ny d.slm.Nx (vortexN F x0 y0 a w l cl X Y) := by
    rintro ⟨i, hi, j, hj, h⟩
    obtain ⟨p, q, e⟩ := C173_partial H hu0 hu hs0 hs hv0 hv hΩ hw hsw hsw2 hwR hRΩ hRΩ2 hRw hcl hl (hR i hi j hj)
    unfold vortexN at h
    rw [e] at h
    cases h
  refine ⟨hno, fun inp window red hm hp hNx hNy hsc hin h => ?_⟩
  rcases ((C174_eta hm hp hNx hNy hsc _ _ _).1).mp h with h | ⟨i, hi, j, hj, h | h⟩
  · exact hno h
  · exact (hin i hi j hj).2 h
  · exact (hin i hi j hj).1 h.1

/-- A vortex target of charge 40 with a waist of 0.1 mm, on a `DLP9500` with light of 370 nm and a lens of 200 mm: no mirror is turned on. -/
example (p : ℝ) (theta : ℝ) (neg : Bool) (i j : ℕ) :
    ∃ g, (Model.DLP9500.slm 370e-9 0.2).imageGrid = .ok g ∧
      calcSimpleN (nanMax 1080 1920) ⟨Model.DLP9500.slm 370e-9 0.2, p, theta, neg⟩ (fun _ _ => some 1)
        (vortexN clip 0 0 1 1e-4 40 [1] g.1.get g.2.get) none i j = false := by
  obtain ⟨g, hg⟩ : ∃ g, (Model.DLP9500.slm 370e-9 0.2).imageGrid = .ok g :=
    ⟨_, if_neg (by rintro (h | h) <;> revert h <;> simp [Model.slm] <;> norm_num)⟩
  refine ⟨g, hg, ?_⟩
  exact ((C188_refuted (clip_ranged le_rfl) le_rfl (by norm_num) ⟨Model.DLP9500.slm 370e-9 0.2, p, theta, neg⟩ hg (by show 0 < 1920; norm_num)
    (by show 0 < 1080; norm_num) (x0 := 0) (y0 := 0) (a := 1) (w := 1e-4) (δ := 0) (by norm_num) (by norm_num) (X := g.1.get) (Y := g.2.get) (by simp)
    (by
      show 2 * ((11 : ℝ) * 1e-4 + 0) ≤ (((1920 : ℕ) : ℝ) - 1) * |(370e-9 * 0.2 : ℝ) / (((1920 : ℕ) : ℝ) * (10.8 * 1e-6))|
      rw [abs_of_nonneg (by positivity)]
      norm_num) (by norm_num) [1] _ none (nanMax 1080 1920)).1 0 (fun _ _ => 0) (fun _ _ => none) 0 0 i j).1

/-- The same target for a `PLUTO_2` -/
example (i j : ℕ) : ∃ g, (Model.PLUTO_2.slm 370e-9 0.2).imageGrid = .ok g ∧
    LCOS.gsN (Model.PLUTO_2.slm 370e-9 0.2) (fun _ _ => some 1) (vortexRealN clip 0 0 1 1e-4 40 [1] g.1.get g.2.get) (fun _ _ => 0) 5 i j = none := by
  obtain ⟨g, hg⟩ : ∃ g, (Model.PLUTO_2.slm 370e-9 0.2).imageGrid = .ok g :=
    ⟨_, if_neg (by rintro (h | h) <;> revert h <;> simp [Model.slm] <;> norm_num)⟩
  refine ⟨g, hg, ?_⟩
  exact (C188_hologram (clip_ranged le_rfl) le_rfl (by norm_num) (Model.PLUTO_2.slm 370e-9 0.2) hg (by show 0 < 1920; norm_num)
    (by show 0 < 1080; norm_num) (x0 := 0) (y0 := 0) (a := 1) (w := 1e-4) (δ := 0) (by norm_num) (by norm_num) (X := g.1.get) (Y := g.2.get) (by simp)
    (by
      show 2 * ((11 : ℝ) * 1e-4 + 0) ≤ (((1920 : ℕ) : ℝ) - 1) * |(370e-9 * 0.2 : ℝ) / (((1920 : ℕ) : ℝ) * (8 * 1e-6))|
      rw [abs_of_nonneg (by positivity)]
      norm_num) (by norm_num) [1] _ (fun _ _ => some 1) 0 _ (by norm_num) i j).1

/-- A vortex target of charge 5 with a waist of 1 mm, on a `DLP9500`: it is free of NaN. -/
example (p theta : ℝ) (neg : Bool) : ¬ HasNan 1080 1920 (vortexN clip 0 0 1 (1 / 1000) 5 [-1, 6] (fun _ j => (j - 960) * 3.6e-6)
    fun i _ => (540 - i) * 6.3e-6) := by
  refine (C188_partial (clip_ranged le_rfl) (by norm_num) (by norm_num) (by norm_num) (by norm_num) le_rfl (by norm_num) (by norm_num)
    ⟨Model.DLP9500.slm 370e-9 0.2, p, theta, neg⟩ (R := 1 / 100) (by norm_num) (by norm_num) (by norm_num) (by norm_num) (by norm_num) (by norm_num)
    (by norm_num) (by simp) (by rw [abs_one, max_self]; norm_num [Int.natAbs, largestPoly]) fun i hi j hj => ?_).1
  have hi' : (i : ℝ) ≤ 1080 := by exact_mod_cast (show i ≤ 1080 from le_of_lt hi)
  have hj' : (j : ℝ) ≤ 1920 := by exact_mod_cast (show j ≤ 1920 from le_of_lt hj)
  have hx : ((j - 960 : ℝ) * 3.6e-6 - 0) ^ 2 ≤ (960 * 3.6e-6) ^ 2 := by
    rw [sub_zero, mul_pow, mul_pow]
    gcongr ?_ * _
    nlinarith [(Nat.cast_nonneg j : (0 : ℝ) ≤ j)]
  have hy : ((540 - i : ℝ) * 6.3e-6 - 0) ^ 2 ≤ (540 * 6.3e-6) ^ 2 := by
    rw [sub_zero, mul_pow, mul_pow]
    gcongr ?_ * _
    nlinarith [(Nat.cast_nonneg i : (0 : ℝ) ≤ i)]
  refine (add_le_add hx hy).trans ?_
  norm_num

end PySLM2.DMD
