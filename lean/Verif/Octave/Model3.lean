import Verif.Octave.Model

/-!
# The octave finder in three dimensions

`multiscale/src/octavefinder.{hpp,cpp}`: the circular buffer of planes (`CircularZ4D`) and the
detection of the local minima of the scale space that slides it along the volume.
-/

namespace Colloids
namespace Octave

variable {G : Type} [Field G] [LinearOrder G]

/-- The parts of `OctaveFinder3D` that the detection reads: `nbLayers + 3` Gaussian layers of
`depth` planes of `rows` rows and `cols` columns (octavefinder.cpp 52-99, 483).
`layersG l k j i` is `layersG[l](k, j, i)`. -/
structure Finder3 (G : Type) where
  nbLayers : Nat
  depth : Nat
  rows : Nat
  cols : Nat
  sizes : List Nat
  layersG : Nat → Nat → Nat → Nat → G

/-- `CircularZ4D` (octavefinder.hpp 164-196): `slot l q j i` is the pixel `(l, q, j, i)` of the
4D image `gaussians`, whose second dimension is 8. -/
structure Circ (G : Type) where
  nLayers : Nat
  rows : Nat
  cols : Nat
  slot : Nat → Nat → Nat → Nat → G
  z0 : Int

/-- Constructor of `CircularZ4D` (octavefinder.cpp 1042-1047). -/
def Circ.init (nLayers rows cols : Nat) : Circ G :=
  { nLayers, rows, cols, slot := fun _ _ _ _ => 0, z0 := 3 }

/-- `(k+z0+8)%8`, with the remainder of C (octavefinder.hpp 178, octavefinder.cpp 1051, 1059). -/
def Circ.slotIndex (c : Circ G) (k : Int) : Int := (k + c.z0 + 8).tmod 8

/-- `CircularZ4D::getG` (octavefinder.hpp 173-182). Out of range is undefined behaviour. -/
def Circ.getG (c : Circ G) (l : Nat) (k : Int) (j i : Nat) : R G :=
  if 0 ≤ c.slotIndex k ∧ l < c.nLayers ∧ j < c.rows ∧ i < c.cols then
    .ok (c.slot l (c.slotIndex k).toNat j i)
  else .error .ub

/-- `CircularZ4D::getDoG` (octavefinder.hpp 183-184). -/
def Circ.getDoG (c : Circ G) (l : Nat) (k : Int) (j i : Nat) : R G := do
  let a ← c.getG (l + 1) k j i
  let b ← c.getG l k j i
  pure (a - b)

/-- `CircularZ4D::loadplanes(&layersG[l](p, 0, 0), l, k, nplanes)` (octavefinder.cpp 1049-1061).
Reading planes that are not in the volume is undefined behaviour (for the layer 0, loaded
first, this is memory outside the volume data). -/
def Circ.loadplanes (o : Finder3 G) (c : Circ G) (p : Int) (l : Nat) (k : Int) (nplanes : Nat) :
    R (Circ G) :=
  let s := c.slotIndex k
  if 8 < s + nplanes then .error .invalidArgument
  else if p < 0 ∨ (o.depth : Int) < p + nplanes ∨ s < 0 ∨ c.nLayers ≤ l then .error .ub
  else .ok { c with
    slot := fun l' q j i =>
      if l' = l ∧ s.toNat ≤ q ∧ q < s.toNat + nplanes then
        o.layersG l (p.toNat + (q - s.toNat)) j i
      else c.slot l' q j i }

/-- `operator++` (octavefinder.hpp 187). -/
def Circ.next (c : Circ G) : Circ G := { c with z0 := (c.z0 + 2).tmod 8 }

/-- Load planes at every scale (octavefinder.cpp 497-498, 504-505). -/
def Circ.loadAll (o : Finder3 G) (c : Circ G) (p k : Int) (nplanes : Nat) : R (Circ G) :=
  (List.range (o.nbLayers + 3)).foldlM (fun c l => c.loadplanes o p l k nplanes) c

/-- The loop over the planes of `OctaveFinder3D::initialize_binary` (octavefinder.cpp 495-506,
554-556). What is done with the window at plane `k` is the parameter `scan`. -/
def slide {σ : Type} (o : Finder3 G) (scan : Nat → Circ G → σ → R σ) (s : σ) : R σ := do
  let s1 ← getR o.sizes 1
  let c0 ← (Circ.init (o.nbLayers + 3) o.rows o.cols).loadAll o ((s1 : Int) - 3) (-3) 6
  let r ← (steps (max s1 3) (o.depth - max s1 3 - 1)).foldlM (fun (st : Circ G × σ) (k : Nat) => do
    let c ← st.1.loadAll o ((k : Int) + 3) 3 2
    let s ← scan k c st.2
    pure (c.next, s)) (c0, s)
  pure r.2

/-- The sixteen pixels of a block (octavefinder.cpp 1065-1071): scale, plane, row, column. -/
def offsets16 : List (Nat × Nat × Nat × Nat) :=
  [0, 1].flatMap fun l => [0, 1].flatMap fun k => [0, 1].flatMap fun j => [0, 1].map fun i =>
    (l, k, j, i)

/-- The 81 pixels visited by `is_localmin` (octavefinder.cpp 1087-1090). The planes are relative
to the window. -/
def around4 (ml : Nat) (mk : Int) (mj mi : Nat) : List (Nat × Int × Nat × Nat) :=
  [ml - 1, ml, ml + 1].flatMap fun l2 => [mk - 1, mk, mk + 1].flatMap fun k2 =>
    [mj - 1, mj, mj + 1].flatMap fun j2 => [mi - 1, mi, mi + 1].map fun i2 => (l2, k2, j2, i2)

/-- `CircularZ4D::blockmin` (octavefinder.cpp 1062-1080): `(ml, mk, mj, mi)` and the value. -/
def Circ.blockmin (c : Circ G) (l j i : Nat) : R ((Nat × Nat × Nat × Nat) × G) := do
  let block ← offsets16.mapM (fun e => c.getDoG (l + e.1) (e.2.1 : Nat) (j + e.2.2.1) (i + e.2.2.2))
  let (mm, v) ← minElement block
  pure ((l + mm / 8 % 2, mm / 4 % 2, j + mm / 2 % 2, i + mm % 2), v)

/-- `CircularZ4D::is_localmin` (octavefinder.cpp 1081-1095). -/
def Circ.isLocalmin (c : Circ G) (l j i : Nat) (m : Nat × Nat × Nat × Nat) (v : G) : R Bool :=
  (around4 m.1 (m.2.1 : Nat) m.2.2.1 m.2.2.2).foldlM (fun ok p =>
    if ok && (p.1 < l || p.2.1 < 0 || p.2.2.1 < j || p.2.2.2 < i || l + 1 < p.1 || 1 < p.2.1
      || j + 1 < p.2.2.1 || i + 1 < p.2.2.2)
    then do
      let x ← c.getDoG p.1 p.2.1 p.2.2.1 p.2.2.2
      pure (decide (v ≤ x))
    else pure ok) true

/-- `CircularZ4D::is_edge` (octavefinder.cpp 1099-1118). -/
def Circ.isEdge (nz : G → Bool) (maxRatio : G) (c : Circ G) (m : Nat × Nat × Nat × Nat) :
    R Bool := do
  let ml := m.1
  let mk : Int := (m.2.1 : Nat)
  let mj := m.2.2.1
  let mi := m.2.2.2
  let x ← c.getDoG ml mk mj mi
  let h0a ← c.getDoG ml mk (mj - 1) mi
  let h0b ← c.getDoG ml mk (mj + 1) mi
  let h1a ← c.getDoG ml mk mj (mi - 1)
  let h1b ← c.getDoG ml mk mj (mi + 1)
  let h2a ← c.getDoG ml mk (mj - 1) (mi - 1)
  let h2b ← c.getDoG ml mk (mj + 1) (mi + 1)
  let h2c ← c.getDoG ml mk (mj + 1) (mi - 1)
  let h2d ← c.getDoG ml mk (mj - 1) (mi + 1)
  pure (edge nz maxRatio (h0a - 2 * x + h0b) (h1a - 2 * x + h1b) (h2a + h2b - h2c - h2d))

/-- Saturation of a quotient of `double` between `-b` and `b` (octavefinder.cpp 607-610,
816-819, 1134-1137, 1162-1165). A null divisor gives an infinite quotient, which is saturated, or
not a number (`none`), which is not. (A divisor equal to minus zero is not considered.) -/
def saturate (b num den : G) : Option G :=
  if den = 0 then
    if num = 0 then none else if 0 < num then some b else some (-b)
  else some (max (-b) (min b (num / den)))

/-- The third order estimate of the position of the extremum from seven values
(octavefinder.cpp 604-611, 1160-1166): `0.4375 - shift`. -/
def subpixel7 (a : Nat → G) : Option G :=
  (saturate 1 ((a 6 - 9 * a 5 + 45 * a 4 - 45 * a 2 + 9 * a 1 - a 0) / 60)
    (a 6 / 90 - 3 * a 5 / 20 + 3 / 2 * a 4 - 49 * a 3 / 18 + 3 / 2 * a 2 - 3 * a 1 / 20 + a 0 / 90)
    ).map (fun shift => 7 / 16 - shift)

/-- The empirical correction of the scale (octavefinder.cpp 802-803, 1131-1132). -/
def correctScale (ml n shift : G) : G :=
  let s := shift - 45 / 1000 * ml / n
  107 / 100 * s + 235 / 1000 * s * s - 29 / 100 * s ^ 3 - 30 / 100 * s ^ 4

/-- The subscale resolution (octavefinder.cpp 1125-1137, and 797-819 with `n` the number of
layers): estimate from three DoG values, correction, saturation between -1/2 and 1/2. With a
null divisor the correction of the infinite estimate is a difference of infinities: not a
number, which is not saturated. -/
def subscale (ml n a0 a1 a2 : G) : Option G :=
  if a2 - 2 * a1 + a0 = 0 then none
  else
    some (max (-(1 / 2)) (min (1 / 2)
      (correctScale ml n (-(a2 - a0) / 2 / (a2 - 2 * a1 + a0)))))

/-- A center with subpixel resolution (octavefinder.cpp 543-549): the pixel, the position and the
scale; `none` is not a number. -/
structure Center3 (G : Type) where
  pixel : Nat × Nat × Nat × Nat
  intensity : G
  pos : Option G × Option G × Option G
  r : Option G

/-- `CircularZ4D::shift` for the four directions (octavefinder.cpp 1119-1169, called 546-549). -/
def Circ.shifts (c : Circ G) (m : Nat × Nat × Nat × Nat) :
    R ((Option G × Option G × Option G) × Option G) := do
  let ml := m.1
  let mk : Int := (m.2.1 : Nat)
  let mj := m.2.2.1
  let mi := m.2.2.2
  let ax ← (List.range 7).mapM (fun u => c.getG (ml - 1) mk mj (mi + u - 3))
  let ay ← (List.range 7).mapM (fun u => c.getG (ml - 1) mk (mj + u - 3) mi)
  let az ← (List.range 7).mapM (fun u => c.getG (ml - 1) (mk - 3 + (u : Nat)) mj mi)
  let s ← (List.range 3).mapM (fun u => c.getDoG (ml + u - 1) mk mj mi)
  pure ((subpixel7 (fun u => ax.getD u 0), subpixel7 (fun u => ay.getD u 0),
      subpixel7 (fun u => az.getD u 0)),
    subscale (ml : G) ((c.nLayers : G) - 2) (s.getD 0 0) (s.getD 1 0) (s.getD 2 0))

/-- `OctaveFinder3D::initialize_binary`, body of the loops for the block at scale `l`, planes
`k` and `k+1`, row `j` and column `i` (octavefinder.cpp 515-551). Simplified: the OpenMP loops
are sequential (with several threads the order of the centers is not specified), and a pixel and
its center with subpixel resolution are pushed together. -/
def block3 (nz : G → Bool) (maxRatio : G) (o : Finder3 G) (k : Nat) (c : Circ G)
    (d : List (Center3 G)) (b : Nat × Nat × Nat) : R (List (Center3 G)) := do
  let l := b.1
  let j := b.2.1
  let i := b.2.2
  let (m, v) ← c.blockmin l j i
  let ml := m.1
  let mk := m.2.1
  let mj := m.2.2.1
  let mi := m.2.2.2
  if 0 < v ∨ nz v = false ∨ o.nbLayers < ml then pure d
  else do
    let s ← getR o.sizes ml
    if ¬ (s ≤ mk + k ∧ mk + k + s < o.depth ∧ s ≤ mj ∧ mj + s < o.rows ∧ s ≤ mi ∧
        mi + s < o.cols) then pure d
    else do
      let lm ← c.isLocalmin l j i m v
      if lm then do
        let e ← c.isEdge nz maxRatio m
        if e then pure d
        else do
          let sh ← c.shifts m
          pure (d ++ [{
            pixel := (mi, mj, mk + k, ml)
            intensity := v
            pos := (sh.1.1.map (fun x => (mi : G) + x), sh.1.2.1.map (fun x => (mj : G) + x),
              sh.1.2.2.map (fun x => ((mk + k : Nat) : G) + x))
            r := sh.2.map (fun x => (ml : G) + x) }])
      else pure d

/-- The blocks at scale `l` of two planes (octavefinder.cpp 510-513): `si = max(sizes[l], 3)`. -/
def blocks3 (o : Finder3 G) (l s : Nat) : List (Nat × Nat × Nat) :=
  (steps (max s 3) (o.rows - max s 3 - 1)).flatMap (fun j =>
    (steps (max s 3) (o.cols - max s 3 - 1)).map (fun i => (l, j, i)))

/-- The detection in the window at plane `k` (octavefinder.cpp 507-553). -/
def scan3 (nz : G → Bool) (maxRatio : G) (o : Finder3 G) (k : Nat) (c : Circ G)
    (d : List (Center3 G)) : R (List (Center3 G)) :=
  (steps 1 (o.nbLayers + 1)).foldlM (fun d l => do
    let s ← getR o.sizes l
    (blocks3 o l s).foldlM (block3 nz maxRatio o k c) d) d

/-- `OctaveFinder3D::initialize_binary` (octavefinder.cpp 481-557). -/
def initializeBinary3 (nz : G → Bool) (maxRatio : G) (o : Finder3 G) : R (List (Center3 G)) :=
  slide o (scan3 nz maxRatio o) []

end Octave
end Colloids
