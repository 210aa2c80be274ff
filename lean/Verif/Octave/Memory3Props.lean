import Verif.Octave.Memory3Model
import Verif.CommonLemmas
import Mathlib.Tactic.FieldSimp
import Mathlib.Tactic.NormNum
import Mathlib.Tactic.Ring
import Mathlib.Data.Rat.Defs

/-! # C121 memory of the 3D finder, C122 checks on the size of the input, C123 preblur -/

namespace Colloids
namespace Octave

theorem memory3_ok (nplanes nrows ncols nbLayers : Nat) (h1 : nplanes * nrows < intLimit)
    (h2 : nplanes * nrows * ncols < intLimit) :
    memory3 nplanes nrows ncols nbLayers = .ok
      { bytes := nplanes * nrows * ncols * 4 * (nbLayers + 3)
        layersG := (List.range (nbLayers + 3)).map fun i => (i * (nplanes * nrows * ncols) * 4, nplanes * nrows * ncols * 4)
        layers := (List.range (nbLayers + 2)).map fun i =>
          ((i + (nbLayers + 3)) * (nplanes * nrows * ncols) * 4, nplanes * nrows * ncols * 4)
        layersG2D := (List.range (nbLayers + 3)).map fun i =>
          (i * (nplanes * nrows * ncols) * 4, nplanes * nrows * ncols * 4) } := by
  unfold memory3 nbPixels3
  rw [if_pos ⟨h1, h2⟩]
  rfl

/-- **C121**: the Gaussian layers of a 3D finder, one for each scale, have a pixel each for every voxel, lie in the
memory of the finder, do not overlap, and are the same memory as their flat versions; if the volume has less than 2^31
voxels. -/
theorem C121_gaussians_partial (nplanes nrows ncols nbLayers : Nat) (h1 : nplanes * nrows < intLimit)
    (h2 : nplanes * nrows * ncols < intLimit) :
    ∃ m, memory3 nplanes nrows ncols nbLayers = .ok m ∧ m.layersG.length = nbLayers + 3 ∧ m.layersG2D = m.layersG ∧
      (∀ a ∈ m.layersG, a.2 = nplanes * nrows * ncols * 4 ∧ a.1 + a.2 ≤ m.bytes) ∧
      (∀ i j : Nat, ∀ a b, i < j → m.layersG[i]? = some a → m.layersG[j]? = some b → a.1 + a.2 ≤ b.1) := by
  refine ⟨_, memory3_ok nplanes nrows ncols nbLayers h1 h2, by simp, rfl, ?_, ?_⟩
  · intro a ha
    simp only [List.mem_map, List.mem_range] at ha
    obtain ⟨i, hi, rfl⟩ := ha
    refine ⟨rfl, ?_⟩
    show i * (nplanes * nrows * ncols) * 4 + nplanes * nrows * ncols * 4 ≤ nplanes * nrows * ncols * 4 * (nbLayers + 3)
    have : i + 1 ≤ nbLayers + 3 := hi
    have := Nat.mul_le_mul_left (nplanes * nrows * ncols * 4) this
    calc i * (nplanes * nrows * ncols) * 4 + nplanes * nrows * ncols * 4
        = nplanes * nrows * ncols * 4 * (i + 1) := by ring
      _ ≤ _ := this
  · intro i j a b hij ha hb
    simp only [List.getElem?_map, Option.map_eq_some_iff] at ha hb
    obtain ⟨i', hi', rfl⟩ := ha
    obtain ⟨j', hj', rfl⟩ := hb
    obtain ⟨hi1, hi2⟩ := List.getElem?_eq_some_iff.1 hi'
    obtain ⟨hj1, hj2⟩ := List.getElem?_eq_some_iff.1 hj'
    rw [List.getElem_range] at hi2 hj2
    subst hi2 hj2
    show i * (nplanes * nrows * ncols) * 4 + nplanes * nrows * ncols * 4 ≤ j * (nplanes * nrows * ncols) * 4
    have : i + 1 ≤ j := hij
    have := Nat.mul_le_mul_left (nplanes * nrows * ncols * 4) this
    calc i * (nplanes * nrows * ncols) * 4 + nplanes * nrows * ncols * 4
        = nplanes * nrows * ncols * 4 * (i + 1) := by ring
      _ ≤ _ := this
      _ = _ := by ring

/-- **C121**, counterexample: the layers of differences of Gaussians (`get_layers`) all lie after the end of the memory
of the finder. -/
theorem C121_differences_counterexample (nplanes nrows ncols nbLayers : Nat) (h1 : nplanes * nrows < intLimit)
    (h2 : nplanes * nrows * ncols < intLimit) :
    ∃ m, memory3 nplanes nrows ncols nbLayers = .ok m ∧ m.layers.length = nbLayers + 2 ∧
      ∀ a ∈ m.layers, m.bytes ≤ a.1 := by
  refine ⟨_, memory3_ok nplanes nrows ncols nbLayers h1 h2, by simp, ?_⟩
  intro a ha
  simp only [List.mem_map, List.mem_range] at ha
  obtain ⟨i, hi, rfl⟩ := ha
  show nplanes * nrows * ncols * 4 * (nbLayers + 3) ≤ (i + (nbLayers + 3)) * (nplanes * nrows * ncols) * 4
  have : nbLayers + 3 ≤ i + (nbLayers + 3) := by omega
  have := Nat.mul_le_mul_left (nplanes * nrows * ncols * 4) this
  calc _ ≤ _ := this
    _ = _ := by ring

/-- **C121**, counterexample: a volume of 2^31 voxels or more is undefined behaviour. -/
theorem C121_large_counterexample (nplanes nrows ncols nbLayers : Nat) (h : intLimit ≤ nplanes * nrows * ncols) :
    memory3 nplanes nrows ncols nbLayers = .error .ub := by
  unfold memory3 nbPixels3
  rw [if_neg (by omega)]
  rfl

example : 64 * 256 < intLimit ∧ 64 * 256 * 256 < intLimit := by decide
example : intLimit ≤ 512 * 2048 * 2048 := by decide

/-- **C122**, two dimensions: an image is accepted iff it has the size of the finder. -/
theorem C122_fill_2D (w h a b : Nat) (octave0 : Bool) (nb : Nat) :
    fillChecks [w, h] [a, b] octave0 nb = if [a, b] = [w, h] then .ok () else .error .invalidArgument := by
  unfold fillChecks octaveCheck
  simp only [List.length_cons, List.length_nil, List.getElem?_cons_zero, List.getElem?_cons_succ, List.cons.injEq,
    and_true]
  by_cases h1 : a = w <;> by_cases h2 : b = h <;> cases octave0 <;> simp [h1, h2, throw, throwThe, MonadExceptOf.throw,
    pure, Except.pure, bind, Except.bind]

/-- **C122**, three dimensions: an image of the size of the finder is accepted, one with other rows or columns is
refused, and one with another number of planes is refused if octave 0 is not used and the finder has at least two
octaves. -/
theorem C122_fill_3D_partial (d w h d' a b : Nat) (octave0 : Bool) (nb : Nat) :
    fillChecks [d, w, h] [d, w, h] octave0 nb = .ok () ∧
    ((a ≠ w ∨ b ≠ h) → fillChecks [d, w, h] [d', a, b] octave0 nb = .error .invalidArgument) ∧
    (d' ≠ d → 1 < nb → fillChecks [d, w, h] [d', w, h] false nb = .error .invalidArgument) := by
  refine ⟨?_, ?_, ?_⟩
  · unfold fillChecks octaveCheck
    cases octave0 <;> simp [pure, Except.pure, bind, Except.bind]
  · intro hne
    unfold fillChecks
    by_cases h1 : a = w <;> by_cases h2 : b = h <;> cases octave0 <;> simp_all [throw, throwThe, MonadExceptOf.throw,
      pure, Except.pure, bind, Except.bind]
  · intro hd hn
    unfold fillChecks octaveCheck
    simp [hd, hn, pure, Except.pure, bind, Except.bind]

/-- **C122**, counterexample: with octave 0 a volume with more planes than the finder is written after the end of the
image; one with fewer planes, whatever the number, is accepted by a finder with octave 0 only; without octave 0 such
a finder accepts anything and does nothing. -/
theorem C122_planes_counterexample (d w h d' : Nat) :
    (d < d' → ∀ nb, fillChecks [d, w, h] [d', w, h] true nb = .error .ub) ∧
    (d' < d → fillChecks [d, w, h] [d', w, h] true 1 = .ok ()) ∧
    fillChecks [d, w, h] [d', w, h] false 1 = .ok () := by
  refine ⟨fun hd nb => ?_, fun hd => ?_, ?_⟩
  · unfold fillChecks
    simp [hd, throw, throwThe, MonadExceptOf.throw, pure, Except.pure, bind, Except.bind]
  · unfold fillChecks
    have : ¬ d < d' := by omega
    simp [this, pure, Except.pure, bind, Except.bind]
  · unfold fillChecks
    simp [pure, Except.pure, bind, Except.bind]

example : (5 : Nat) < 8 := by decide

variable {G : Type} [Field G]

/-- **C123**: without the options the preblur is isotropic: its radius along Z, in pixels of X, is its radius along X
and Y, and it is the one that was set. -/
theorem C123_isotropic_partial (p : Preblur3 G) (hz : p.zxRatio ≠ 0) (h1 : p.halfZ = false) (h2 : p.deconv = false) :
    p.radii.1 * p.zxRatio = p.radius ∧ p.radii.2 = p.radius := by
  unfold Preblur3.radii
  simp [h1, h2, hz]

/-- **C123**, counterexample: `set_halfZpreblur` doubles the radius along Z instead of halving it, and the ratio of the
sizes of the voxels is not used. -/
theorem C123_half_counterexample (p : Preblur3 G) (h1 : p.halfZ = true) (h2 : p.deconv = false) :
    p.radii.1 = 2 * p.radius ∧ p.radii.2 = p.radius := by
  unfold Preblur3.radii
  simp [h1, h2, mul_comm]

/-- **C123**, counterexample: with deconvolution the ratio of the sizes of the voxels is not used. -/
theorem C123_deconv_counterexample (p : Preblur3 G) (h2 : p.deconv = true) :
    p.radii.1 = p.radius ∧ p.radii.2 = p.radius := by
  unfold Preblur3.radii
  simp [h2]

/-- **C123**: whatever the settings made, with the exceptions caught, deconvolution is on only with a kernel of the size
that the convolution of columns of `depth` pixels needs. -/
theorem C123_kernel (depth : Nat) (p : Preblur3 G) (hp : p.deconv = true → p.kernelSize = depth / 2 + 1)
    (l : List (Setting G)) :
    (p.setAll depth l).deconv = true → (p.setAll depth l).kernelSize = depth / 2 + 1 := by
  unfold Preblur3.setAll
  induction l generalizing p with
  | nil => exact hp
  | cons s l ih =>
    rw [List.foldl_cons]
    apply ih
    cases s with
    | zxRatio r => exact hp
    | halfZ b => exact hp
    | loadKernel n =>
      simp only [Preblur3.set]
      by_cases hn : n ≠ depth / 2 + 1
      · rw [if_pos hn]; exact hp
      · rw [if_neg hn]
        exact fun _ => not_not.1 hn
    | deconv b =>
      simp only [Preblur3.set]
      by_cases hb : b = true ∧ p.kernelSize ≠ depth / 2 + 1
      · rw [if_pos hb]; exact hp
      · rw [if_neg hb]
        intro hd
        exact not_not.1 fun hne => hb ⟨hd, hne⟩

example : ∃ p : Preblur3 ℚ, p.zxRatio ≠ 0 ∧ p.halfZ = false ∧ p.deconv = false ∧ p.radii.1 ≠ p.radii.2 :=
  ⟨{ radius := 16 / 10, zxRatio := 2, halfZ := false, deconv := false, kernelSize := 0 }, by norm_num, rfl, rfl, by
    simp only [Preblur3.radii, Bool.false_eq_true, if_false]
    norm_num⟩

example : ({ radius := 1, zxRatio := 1, halfZ := false, deconv := false, kernelSize := 0 } : Preblur3 ℚ).deconv = true →
    (0 : Nat) = 10 / 2 + 1 := fun h => absurd h (by decide)

end Octave
end Colloids
