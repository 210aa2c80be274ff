import Verif.Octave.Model3

/-! # What the detection of blobs should find -/

namespace Colloids
namespace Octave

variable {G : Type} [Field G] [LinearOrder G]

/-- No pixel next to `(k, j, i)` in the scale space is lower. -/
def LocalMin2 (o : Finder G) (k j i : Nat) : Prop :=
  ∀ k' j' i', k ≤ k' + 1 → k' ≤ k + 1 → j ≤ j' + 1 → j' ≤ j + 1 → i ≤ i' + 1 → i' ≤ i + 1 →
    o.layers k j i ≤ o.layers k' j' i'

/-- All pixels next to `(k, j, i)` in the scale space are higher. -/
def StrictMin2 (o : Finder G) (k j i : Nat) : Prop :=
  ∀ k' j' i', k ≤ k' + 1 → k' ≤ k + 1 → j ≤ j' + 1 → j' ≤ j + 1 → i ≤ i' + 1 → i' ≤ i + 1 →
    (k', j', i') ≠ (k, j, i) → o.layers k j i < o.layers k' j' i'

/-- The value of a pixel is negative, not rounded to zero, and the pixel is not on an edge. -/
def Blob2 (nz : G → Bool) (maxRatio : G) (o : Finder G) (k j i : Nat) : Prop :=
  o.layers k j i < 0 ∧ nz (o.layers k j i) = true ∧
    edge nz maxRatio (o.layers k (j - 1) i - 2 * o.layers k j i + o.layers k (j + 1) i)
      (o.layers k j (i - 1) - 2 * o.layers k j i + o.layers k j (i + 1))
      (o.layers k (j - 1) (i - 1) + o.layers k (j + 1) (i + 1) - o.layers k (j + 1) (i - 1)
        - o.layers k (j - 1) (i + 1)) = false

/-- The pixel is at least `s` pixels away from the borders. -/
def Inside2 (o : Finder G) (s j i : Nat) : Prop :=
  s ≤ j ∧ j + s < o.width ∧ s ≤ i ∧ i + s < o.height

/-- In one dimension: no pixel next to column `i` of layer `k` is lower. -/
def LocalMin1 (o : Finder G) (k i : Nat) : Prop :=
  ∀ k' i', k ≤ k' + 1 → k' ≤ k + 1 → i ≤ i' + 1 → i' ≤ i + 1 →
    o.layers k 0 i ≤ o.layers k' 0 i'

/-- In one dimension: all pixels next to column `i` of layer `k` are higher. -/
def StrictMin1 (o : Finder G) (k i : Nat) : Prop :=
  ∀ k' i', k ≤ k' + 1 → k' ≤ k + 1 → i ≤ i' + 1 → i' ≤ i + 1 →
    (k', i') ≠ (k, i) → o.layers k 0 i < o.layers k' 0 i'

/-- In one dimension: the value is negative, not rounded to zero, and the pixel is not on an
edge of the Gaussian layer. -/
def Blob1 (nz : G → Bool) (o : Finder G) (k i : Nat) : Prop :=
  o.layers k 0 i < 0 ∧ nz (o.layers k 0 i) = true ∧
    steep (o.layersG k 0 (i - 1)) (o.layersG k 0 i) (o.layersG k 0 (i + 1)) = true

/-! ## Three dimensions -/

/-- The difference of Gaussians at scale `l`, plane `k`, row `j`, column `i`. -/
def dog3 (o : Finder3 G) (l k j i : Nat) : G := o.layersG (l + 1) k j i - o.layersG l k j i

/-- The pixels `(l, k, j, i)` and `(l', k', j', i')` are the same or touch each other. -/
def Near (l k j i l' k' j' i' : Nat) : Prop :=
  (l ≤ l' + 1 ∧ l' ≤ l + 1) ∧ (k ≤ k' + 1 ∧ k' ≤ k + 1) ∧ (j ≤ j' + 1 ∧ j' ≤ j + 1) ∧
    (i ≤ i' + 1 ∧ i' ≤ i + 1)

/-- No pixel next to `(l, k, j, i)` in the scale space is lower. -/
def LocalMin3 (o : Finder3 G) (l k j i : Nat) : Prop :=
  ∀ l' k' j' i', Near l k j i l' k' j' i' → dog3 o l k j i ≤ dog3 o l' k' j' i'

/-- All pixels next to `(l, k, j, i)` in the scale space are higher. -/
def StrictMin3 (o : Finder3 G) (l k j i : Nat) : Prop :=
  ∀ l' k' j' i', Near l k j i l' k' j' i' → (l', k', j', i') ≠ (l, k, j, i) →
    dog3 o l k j i < dog3 o l' k' j' i'

/-- The value is not positive, not rounded to zero, and the pixel is not on an edge in its
plane. -/
def Blob3 (nz : G → Bool) (maxRatio : G) (o : Finder3 G) (l k j i : Nat) : Prop :=
  dog3 o l k j i ≤ 0 ∧ nz (dog3 o l k j i) = true ∧
    edge nz maxRatio (dog3 o l k (j - 1) i - 2 * dog3 o l k j i + dog3 o l k (j + 1) i)
      (dog3 o l k j (i - 1) - 2 * dog3 o l k j i + dog3 o l k j (i + 1))
      (dog3 o l k (j - 1) (i - 1) + dog3 o l k (j + 1) (i + 1) - dog3 o l k (j + 1) (i - 1)
        - dog3 o l k (j - 1) (i + 1)) = false

/-- The pixel is at least `s` pixels away from the borders of the volume. -/
def Inside3 (o : Finder3 G) (s k j i : Nat) : Prop :=
  (s ≤ k ∧ k + s < o.depth) ∧ (s ≤ j ∧ j + s < o.rows) ∧ (s ≤ i ∧ i + s < o.cols)

/-- The center with subpixel resolution of a pixel: each coordinate is estimated from the seven
values along its direction in the Gaussian layer below, the scale from the three values of the
difference of Gaussians. -/
def centerOf (o : Finder3 G) (l k j i : Nat) : Center3 G :=
  { pixel := (i, j, k, l)
    intensity := dog3 o l k j i
    pos := ((subpixel7 (fun u => o.layersG (l - 1) k j (i + u - 3))).map (fun x => (i : G) + x),
      (subpixel7 (fun u => o.layersG (l - 1) k (j + u - 3) i)).map (fun x => (j : G) + x),
      (subpixel7 (fun u => o.layersG (l - 1) (k + u - 3) j i)).map (fun x => (k : G) + x))
    r := (subscale (l : G) ((o.nbLayers : G) + 1) (dog3 o (l - 1) k j i) (dog3 o l k j i)
      (dog3 o (l + 1) k j i)).map (fun x => (l : G) + x) }

end Octave
end Colloids
