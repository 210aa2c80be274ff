import Mathlib.Tactic.Linarith
import Mathlib.Tactic.NormNum
import Mathlib.Analysis.Real.Pi.Bounds
import Mathlib.Topology.Order.OrderClosed
import Verif.Py.ColorModel

/-! # C250: the color scale of python -/

namespace Colloids
namespace Py
namespace Color

theorem clip_mem (v : ℝ) : 0 ≤ clip v ∧ clip v ≤ 1 :=
  ⟨le_min (le_max_right _ _) zero_le_one, min_le_right _ _⟩

/-- C250. The three channels are always between 0 and 1. -/
theorem C250_channels (v centre extrema : ℝ) :
    (0 ≤ (colorscale v centre extrema).1 ∧ (colorscale v centre extrema).1 ≤ 1) ∧
    (0 ≤ (colorscale v centre extrema).2.1 ∧ (colorscale v centre extrema).2.1 ≤ 1) ∧
    0 ≤ (colorscale v centre extrema).2.2 ∧ (colorscale v centre extrema).2.2 ≤ 1 :=
  ⟨clip_mem _, clip_mem _, clip_mem _⟩

/-- The lightness, the first and the second chroma coordinate of a value. -/
noncomputable def lab (v centre extrema : ℝ) : ℝ × ℝ × ℝ :=
  msh2lab (scaleMsh v centre extrema).1 (scaleMsh v centre extrema).2.1 (scaleMsh v centre extrema).2.2

theorem colorscale_lab (v centre extrema : ℝ) :
    colorscale v centre extrema = lab2rgb (lab v centre extrema).1 (lab v centre extrema).2.1 (lab v centre extrema).2.2 := rfl

theorem fract_self {v : ℝ} (h0 : 0 ≤ v) (h1 : v < 1) : Int.fract v = v := Int.fract_eq_self.2 ⟨h0, h1⟩

/-- Coordinates of a value on the left and on the right. -/
theorem lab_eq (v centre extrema : ℝ) (h0 : 0 ≤ v) (h1 : v < 1) :
    lab v centre extrema = msh2lab (2 * (extrema - centre) * |v - 0.5| + centre) (1.08 * 2 * |0.5 - v|)
      (if v < 0.5 then -1.1 - 2 * v * 0.561 else 1.061 - 2 * (v - 0.5) * 0.561) := by
  rw [lab, scaleMsh, fract_self h0 h1]

theorem mag_pos {v centre extrema : ℝ} (hc : 0 < centre) (he : 0 < extrema) (h0 : 0 ≤ v) (h1 : v < 1) :
    0 < 2 * (extrema - centre) * |v - 0.5| + centre := by
  have h2 : |v - 0.5| ≤ 0.5 := abs_le.2 ⟨by linarith, by linarith⟩
  have h3 := abs_nonneg (v - 0.5)
  have : 2 * (extrema - centre) * |v - 0.5| + centre = extrema * (2 * |v - 0.5|) + centre * (1 - 2 * |v - 0.5|) := by ring
  rw [this]
  have h4 : 0 ≤ 1 - 2 * |v - 0.5| := by linarith
  rcases h3.lt_or_eq with h | h
  · have := mul_pos he (show 0 < 2 * |v - 0.5| by linarith)
    have := mul_nonneg hc.le h4
    linarith
  · rw [← h]
    linarith

/-- C250. Between 0 and 1 (excluded), the colors go from blue to yellow and red through grey: the second chroma coordinate is negative below one half, zero at
one half, positive above. At one half the color is the grey of lightness `centre`. -/
theorem C250_sides_partial (v centre extrema : ℝ) (hc : 0 < centre) (he : 0 < extrema) (h0 : 0 ≤ v) (h1 : v < 1) :
    ((lab v centre extrema).2.2 < 0 ↔ v < 1 / 2) ∧ (0 < (lab v centre extrema).2.2 ↔ 1 / 2 < v) ∧
      (v = 1 / 2 → lab v centre extrema = (centre, 0, 0)) := by
  have hm := mag_pos hc he h0 h1
  have hpi := Real.pi_gt_three
  have hneg : v < 1 / 2 → (lab v centre extrema).2.2 < 0 := by
    intro h
    rw [lab_eq v centre extrema h0 h1, if_pos (by linarith)]
    have hs : 0 < Real.sin (1.08 * 2 * |0.5 - v|) := by
      rw [abs_of_pos (by linarith)]
      exact Real.sin_pos_of_pos_of_lt_pi (by linarith) (by linarith)
    have hh : Real.sin (-1.1 - 2 * v * 0.561) < 0 := Real.sin_neg_of_neg_of_neg_pi_lt (by linarith) (by linarith)
    exact mul_neg_of_pos_of_neg (mul_pos hm hs) hh
  have hpos : 1 / 2 < v → 0 < (lab v centre extrema).2.2 := by
    intro h
    rw [lab_eq v centre extrema h0 h1, if_neg (by linarith)]
    have hs : 0 < Real.sin (1.08 * 2 * |0.5 - v|) := by
      rw [abs_of_neg (by linarith)]
      exact Real.sin_pos_of_pos_of_lt_pi (by linarith) (by linarith)
    have hh : 0 < Real.sin (1.061 - 2 * (v - 0.5) * 0.561) := Real.sin_pos_of_pos_of_lt_pi (by linarith) (by linarith)
    exact mul_pos (mul_pos hm hs) hh
  have hmid : v = 1 / 2 → lab v centre extrema = (centre, 0, 0) := by
    intro h
    rw [lab_eq v centre extrema h0 h1]
    have e1 : |v - 0.5| = 0 := by rw [h]; norm_num
    have e2 : |0.5 - v| = 0 := by rw [h]; norm_num
    rw [e1, e2, msh2lab]
    simp
  have hmid' : v = 1 / 2 → (lab v centre extrema).2.2 = 0 := fun h => by rw [hmid h]
  refine ⟨⟨fun h => ?_, hneg⟩, ⟨fun h => ?_, hpos⟩, hmid⟩
  · rcases lt_trichotomy v (1 / 2) with k | k | k
    · exact k
    · rw [hmid' k] at h
      exact absurd h (lt_irrefl _)
    · exact absurd h (not_lt.2 (hpos k).le)
  · rcases lt_trichotomy v (1 / 2) with k | k | k
    · exact absurd h (not_lt.2 (hneg k).le)
    · rw [hmid' k] at h
      exact absurd h (lt_irrefl _)
    · exact k

/-- C250. The scale has no jump in the space of colors `l, a, b` between 0 and 1 (excluded), although the hue jumps at one half. -/
theorem C250_continuous_partial (centre extrema : ℝ) : ContinuousOn (fun v => lab v centre extrema) (Set.Ico 0 1) := by
  have hcong : Set.EqOn (fun v => lab v centre extrema) (fun v =>
      if v < 0.5 then msh2lab (2 * (extrema - centre) * |v - 0.5| + centre) (1.08 * 2 * |0.5 - v|) (-1.1 - 2 * v * 0.561)
      else msh2lab (2 * (extrema - centre) * |v - 0.5| + centre) (1.08 * 2 * |0.5 - v|) (1.061 - 2 * (v - 0.5) * 0.561)) (Set.Ico 0 1) := by
    intro v hv
    simp only
    rw [lab_eq v centre extrema hv.1 hv.2]
    split <;> rfl
  refine ContinuousOn.congr (Continuous.continuousOn ?_) hcong
  have hf : Continuous fun v : ℝ => msh2lab (2 * (extrema - centre) * |v - 0.5| + centre) (1.08 * 2 * |0.5 - v|) (-1.1 - 2 * v * 0.561) := by
    unfold msh2lab
    fun_prop
  have hg : Continuous fun v : ℝ => msh2lab (2 * (extrema - centre) * |v - 0.5| + centre) (1.08 * 2 * |0.5 - v|) (1.061 - 2 * (v - 0.5) * 0.561) := by
    unfold msh2lab
    fun_prop
  have := Continuous.if_le (f := fun v : ℝ => (0.5 : ℝ)) (g := fun v : ℝ => v) hg hf continuous_const continuous_id (by
    intro v hv
    have hv : (0.5 : ℝ) = v := hv
    have e2 : |0.5 - v| = 0 := by rw [← hv]; norm_num
    simp [msh2lab, e2])
  refine this.congr fun v => ?_
  by_cases h : v < 0.5
  · rw [if_pos h, if_neg (not_le.2 h)]
  · rw [if_neg h, if_pos (not_lt.1 h)]

/-- C250. At 0 the coordinates are those of the blue end of the scale of Paraview, at one half the white, and they tend to the red end at 1: magnitude and
saturation are linear between the ends and one half, the hue is linear on each side. -/
theorem C250_ends (v centre extrema : ℝ) (h0 : 0 ≤ v) :
    (v < 1 / 2 → scaleMsh v centre extrema =
      ((1 - 2 * v) * extrema + 2 * v * centre, (1 - 2 * v) * 1.08, (1 - 2 * v) * (-1.1) + 2 * v * (-1.661))) ∧
    (1 / 2 ≤ v → v < 1 → scaleMsh v centre extrema =
      ((2 * v - 1) * extrema + (2 - 2 * v) * centre, (2 * v - 1) * 1.08, (2 * v - 1) * 0.5 + (2 - 2 * v) * 1.061)) := by
  constructor
  · intro h
    rw [scaleMsh, fract_self h0 (by linarith)]
    rw [if_pos (by linarith), abs_of_neg (by linarith), abs_of_pos (by linarith)]
    refine Prod.ext ?_ (Prod.ext ?_ ?_) <;> simp only <;> ring
  · intro h h1
    rw [scaleMsh, fract_self h0 h1]
    rw [if_neg (by linarith), abs_of_nonneg (show 0 ≤ v - 0.5 by linarith), abs_of_nonpos (by linarith)]
    refine Prod.ext ?_ (Prod.ext ?_ ?_) <;> simp only <;> ring

/-- C250. The distance of the color to black in the space `Lab` goes linearly from `extrema` at 0 to `centre` at one half and back. -/
theorem C250_distance (v centre extrema : ℝ) (h0 : 0 ≤ v) (h1 : v < 1) :
    (lab v centre extrema).1 ^ 2 + (lab v centre extrema).2.1 ^ 2 + (lab v centre extrema).2.2 ^ 2 =
      (|2 * v - 1| * extrema + (1 - |2 * v - 1|) * centre) ^ 2 := by
  have hn : ∀ m s h : ℝ, (msh2lab m s h).1 ^ 2 + (msh2lab m s h).2.1 ^ 2 + (msh2lab m s h).2.2 ^ 2 = m ^ 2 := by
    intro m s h
    have e1 := Real.sin_sq_add_cos_sq s
    have e2 := Real.sin_sq_add_cos_sq h
    simp only [msh2lab]
    calc (m * Real.cos s) ^ 2 + (m * Real.sin s * Real.cos h) ^ 2 + (m * Real.sin s * Real.sin h) ^ 2
        = m ^ 2 * Real.cos s ^ 2 + m ^ 2 * Real.sin s ^ 2 * (Real.sin h ^ 2 + Real.cos h ^ 2) := by ring
      _ = m ^ 2 * (Real.sin s ^ 2 + Real.cos s ^ 2) := by rw [e2]; ring
      _ = m ^ 2 := by rw [e1, mul_one]
  rw [lab, hn, scaleMsh, fract_self h0 h1]
  have : |2 * v - 1| = 2 * |v - 0.5| := by
    rw [show 2 * v - 1 = 2 * (v - 0.5) by ring, abs_mul, abs_of_pos (by norm_num : (0 : ℝ) < 2)]
  rw [this]
  ring

example : (0 : ℝ) ≤ 0.25 ∧ (0.25 : ℝ) < 1 := by norm_num

/-- C250, the part that is false. The value 1 has the color of 0: blue, while the values just below have a positive second chroma coordinate. -/
theorem C250_one_counterexample (centre extrema : ℝ) (hc : 0 < centre) (he : 0 < extrema) :
    colorscale 1 centre extrema = colorscale 0 centre extrema ∧ (lab 1 centre extrema).2.2 < 0 ∧
      ∀ v, 1 / 2 < v → v < 1 → 0 < (lab v centre extrema).2.2 := by
  have hl : lab 1 centre extrema = lab 0 centre extrema := by
    rw [lab, lab, scaleMsh, scaleMsh, Int.fract_one, Int.fract_zero]
  refine ⟨?_, ?_, fun v h h1 => ?_⟩
  · rw [colorscale_lab, colorscale_lab, hl]
  · rw [hl]
    exact (C250_sides_partial 0 centre extrema hc he le_rfl one_pos).1.2 (by norm_num)
  · exact (C250_sides_partial v centre extrema hc he (by linarith) h1).2.1.2 h

/-- The values by default of the arguments. -/
example : (0 : ℝ) < 88 ∧ (0 : ℝ) < 80 ∧ (lab 0.25 88 80).2.2 < 0 := by
  refine ⟨by norm_num, by norm_num, (C250_sides_partial 0.25 88 80 (by norm_num) (by norm_num) (by norm_num) (by norm_num)).1.2 (by norm_num)⟩

end Color
end Py
end Colloids
