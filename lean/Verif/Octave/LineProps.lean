import Verif.Octave.LineModel
import Verif.Octave.SubProps
import Verif.Octave.PyramidLemmas

/-! # C69, C70: lines and volumes -/

namespace Colloids
namespace Octave

variable {G : Type} [Field G] [LinearOrder G]

/-! ## C70: lines -/

theorem reflect101_lt (len : Nat) (h : 0 < len) (p : Int) : reflect101 len p < len := by
  unfold reflect101
  split
  · omega
  · simp only []
    have h2 : (0 : Int) < 2 * ((len : Int) - 1) := by omega
    have h3 := Int.emod_lt_of_pos p h2
    have h4 := Int.emod_nonneg p h2.ne'
    generalize p % (2 * ((len : Int) - 1)) = q at h3 h4 ⊢
    split <;> omega

/-- An extension of a line that is even around its first and last pixel takes its values. -/
theorem even_extension (len : Nat) (h : 0 < len) (row : Nat → G) (e : Int → G) (hrow : ∀ i : Nat, i < len → e i = row i)
    (h0 : ∀ p, e (-p) = e p) (h1 : ∀ p, e (2 * ((len : Int) - 1) - p) = e p) (hone : len = 1 → ∀ p, e p = e 0) (p : Int) :
    row (reflect101 len p) = e p := by
  by_cases hl : len = 1
  · rw [← hrow _ (reflect101_lt len h p), hone hl p, hone hl]
  · have hper : ∀ p, e (p + 2 * ((len : Int) - 1)) = e p := by
      intro p
      rw [← h1 (p + 2 * ((len : Int) - 1)), ← h0 p]
      congr 1; ring
    have hper' : ∀ (n : Nat) p, e (p + n * (2 * ((len : Int) - 1))) = e p := by
      intro n
      induction n with
      | zero => intro p; simp
      | succ n ih =>
        intro p
        rw [← ih p, ← hper (p + n * (2 * ((len : Int) - 1)))]
        congr 1; push_cast; ring
    have hperZ : ∀ (z : Int) p, e (p + z * (2 * ((len : Int) - 1))) = e p := by
      intro z p
      obtain ⟨n, rfl | rfl⟩ := Int.eq_nat_or_neg z
      · exact hper' n p
      · rw [← hper' n (p + -(n : Int) * (2 * ((len : Int) - 1)))]
        congr 1; ring
    have hq : e p = e (p % (2 * ((len : Int) - 1))) := by
      rw [← hperZ (p / (2 * ((len : Int) - 1))) (p % (2 * ((len : Int) - 1)))]
      congr 1
      have := Int.emod_add_mul_ediv p (2 * ((len : Int) - 1))
      linarith [mul_comm (2 * ((len : Int) - 1)) (p / (2 * ((len : Int) - 1)))]
    rw [hq, ← hrow _ (reflect101_lt len h p)]
    unfold reflect101
    rw [if_neg hl]
    simp only []
    have h2 : (0 : Int) < 2 * ((len : Int) - 1) := by omega
    have h3 := Int.emod_lt_of_pos p h2
    have h4 := Int.emod_nonneg p h2.ne'
    generalize p % (2 * ((len : Int) - 1)) = q at h3 h4 ⊢
    split
    · rw [Int.toNat_of_nonneg h4]
    · rw [← h1 q]
      congr 1; omega

/-- **C70, lines.** The response between two layers is the convolution of the layer below with the kernel, the line being
extended by mirror images: `e` is any extension that is even around the first and the last pixel (constant if
there is only one). -/
theorem C70_line (o : Finder G) (k : Nat) (kernel : List G) (c : Nat) (hk : k < o.nbLayers + 3) (hw : 0 < o.width)
    (hh : 0 < o.height) (e : Int → G) (hrow : ∀ i : Nat, i < o.height → e i = o.layersG k 0 i)
    (h0 : ∀ p, e (-p) = e p) (h1 : ∀ p, e (2 * ((o.height : Int) - 1) - p) = e p)
    (hone : o.height = 1 → ∀ p, e p = e 0) :
    convolve1 o k kernel c = .ok (∑ x ∈ Finset.range kernel.length,
      e ((c : Int) - x + (kernel.length / 2 : Nat)) * kernel.getD x 0) := by
  unfold convolve1
  have := fold_closed (fun (resp : G) (x : Nat) => do
    let v ← o.gauss k 0 (reflect101 o.height ((c : Int) - x + (kernel.length / 2 : Nat)))
    let w ← getR kernel x
    pure (resp + v * w)) (fun n => ∑ x ∈ Finset.range n, e ((c : Int) - x + (kernel.length / 2 : Nat)) * kernel.getD x 0)
    kernel.length (by
    intro x hx
    simp only [Finder.gauss]
    rw [if_pos ⟨hk, hw, reflect101_lt _ hh _⟩, ok_bind, getR_of_lt hx, ok_bind, pure_eq_ok, Finset.sum_range_succ,
      even_extension o.height hh (o.layersG k 0) e hrow h0 h1 hone]
    simp [List.getD, List.getElem?_eq_getElem hx])
  exact this

/-- A constant line gives this constant at every pixel, borders included. -/
theorem C70_line_constant (o : Finder G) (k : Nat) (kernel : List G) (c : Nat) (a : G) (hk : k < o.nbLayers + 3)
    (hw : 0 < o.width) (hh : 0 < o.height) (hsum : kernel.sum = 1) (ha : ∀ i, i < o.height → o.layersG k 0 i = a) :
    convolve1 o k kernel c = .ok a := by
  have hs : ∑ x ∈ Finset.range kernel.length, kernel.getD x 0 = 1 := by
    rw [← sum_map_range, ← hsum]
    congr 1
    apply List.ext_getElem?
    intro i
    by_cases h : i < kernel.length <;> simp [h, List.getD]
  rw [C70_line o k kernel c hk hw hh (fun _ => a) (fun i hi => (ha i hi).symm) (fun _ => rfl) (fun _ => rfl)
    (fun _ _ => rfl), ← Finset.mul_sum, hs, mul_one]

/-- A line of three pixels and its even extension of period four. -/
example : ∃ (o : Finder ℚ) (e : Int → ℚ), o.height = 3 ∧ (∀ i : Nat, i < o.height → e i = o.layersG 0 0 i) ∧
    (∀ p, e (-p) = e p) ∧ (∀ p, e (2 * ((o.height : Int) - 1) - p) = e p) ∧ e 0 ≠ e 2 := by
  refine ⟨⟨1, 1, 3, [2, 2, 3, 4], fun _ _ i => if i = 0 then 5 else if i = 1 then 3 else 8, fun _ _ _ => 0⟩,
    fun p => if p % 4 = 0 then 5 else if p % 4 = 2 then 8 else 3, rfl, ?_, ?_, ?_, by norm_num⟩
  · intro i hi
    have : i = 0 ∨ i = 1 ∨ i = 2 := by simp only at hi; omega
    rcases this with rfl | rfl | rfl <;> norm_num
  · intro p
    simp only
    by_cases h : p % 4 = 0
    · rw [if_pos h, if_pos (by omega)]
    · by_cases h2 : p % 4 = 2
      · rw [if_neg (by omega), if_pos (by omega), if_neg h, if_pos h2]
      · rw [if_neg (by omega), if_neg (by omega), if_neg h, if_neg h2]
  · intro p
    simp only
    by_cases h : p % 4 = 0
    · rw [if_pos h, if_pos (by omega)]
    · by_cases h2 : p % 4 = 2
      · rw [if_neg (by omega), if_pos (by omega), if_neg h, if_pos h2]
      · rw [if_neg (by omega), if_neg (by omega), if_neg h, if_neg h2]

/-! ## C70: volumes -/

theorem addRow_ok (read : Nat → R G) (v : Nat → G) (w : G) (y : Nat) : ∀ (X : List Nat) (im : Nat → Nat → G), X.Nodup →
    (∀ x ∈ X, read x = .ok (v x)) →
    addRow read w X y im = .ok (fun y' x' => im y' x' + if y' = y ∧ x' ∈ X then v x' * w else 0) := by
  intro X
  induction X with
  | nil => intro im _ _; simp [addRow, List.foldlM_nil, pure_eq_ok]
  | cons a X ih =>
    intro im hn hr
    unfold addRow at ih ⊢
    rw [List.foldlM_cons, hr a (by simp), ok_bind]
    refine (ih _ (List.nodup_cons.1 hn).2 (fun x hx => hr x (by simp [hx]))).trans ?_
    congr 1
    funext y' x'
    have hna := (List.nodup_cons.1 hn).1
    by_cases hy : y' = y
    · by_cases hxa : x' = a
      · subst hxa; simp [hna, hy]
      · simp [hxa, hy]
    · simp [hy]

theorem addPlane_ok (read : Nat → Nat → R G) (v : Nat → Nat → G) (w : G) (X : List Nat) (hX : X.Nodup) :
    ∀ (Y : List Nat) (im : Nat → Nat → G), Y.Nodup → (∀ y ∈ Y, ∀ x ∈ X, read y x = .ok (v y x)) →
    Y.foldlM (fun im y => addRow (read y) w X y im) im =
      .ok (fun y' x' => im y' x' + if y' ∈ Y ∧ x' ∈ X then v y' x' * w else 0) := by
  intro Y
  induction Y with
  | nil => intro im _ _; simp [List.foldlM_nil, pure_eq_ok]
  | cons a Y ih =>
    intro im hn hr
    rw [List.foldlM_cons, addRow_ok (read a) (v a) w a X im hX (hr a (by simp)), ok_bind,
      ih _ (List.nodup_cons.1 hn).2 (fun y hy => hr y (by simp [hy]))]
    congr 1
    funext y' x'
    have hna := (List.nodup_cons.1 hn).1
    by_cases hy : y' = a
    · subst hy; simp [hna]
    · simp [hy]

theorem addVolume_ok (kernel : List G) (ker : Nat → G) (read : Nat → Nat → Nat → R G) (v : Nat → Nat → Nat → G)
    (X Y : List Nat) (hX : X.Nodup) (hY : Y.Nodup) :
    ∀ (Z : List Nat) (im : Nat → Nat → G), (∀ z ∈ Z, getR kernel z = .ok (ker z)) →
    (∀ z ∈ Z, ∀ y ∈ Y, ∀ x ∈ X, read z y x = .ok (v z y x)) →
    Z.foldlM (fun im z => do
      let w ← getR kernel z
      Y.foldlM (fun im y => addRow (read z y) w X y im) im) im =
      .ok (fun y' x' => im y' x' + if y' ∈ Y ∧ x' ∈ X then (Z.map (fun z => v z y' x' * ker z)).sum else 0) := by
  intro Z
  induction Z with
  | nil => intro im _ _; simp [List.foldlM_nil, pure_eq_ok]
  | cons a Z ih =>
    intro im hk hr
    rw [List.foldlM_cons, hk a (by simp), ok_bind, addPlane_ok (read a) (v a) (ker a) X hX Y im hY (hr a (by simp)),
      ok_bind, ih _ (fun z hz => hk z (by simp [hz])) (fun z hz => hr z (by simp [hz]))]
    congr 1
    funext y' x'
    by_cases h : y' ∈ Y ∧ x' ∈ X
    · simp [h, add_assoc]
    · rw [if_neg h, if_neg h, if_neg h]; simp

/-- The pixel of the layer `l` at plane `z`, row `y` and column `x`, zero outside of the volume. -/
def padded3 (o : Finder3 G) (l : Nat) (z y x : Int) : G :=
  if (0 ≤ z ∧ z < o.depth) ∧ (0 ≤ y ∧ y < o.rows) ∧ 0 ≤ x ∧ x < o.cols then o.layersG l z.toNat y.toNat x.toNat else 0

/-- What `convolve3` computes when it does not read out of the volume. -/
theorem convolve3_sum (o : Finder3 G) (l : Nat) (kernel : List G) (c0 c1 c2 : Nat) (hl : l < o.nbLayers + 3)
    (hin : ∀ x y, c0 + kernel.length / 2 + 1 - o.rows ≤ x → x < kernel.length →
      x < c0 + kernel.length / 2 + 1 → c1 + kernel.length / 2 + 1 - o.cols ≤ y →
      y < kernel.length → y < c1 + kernel.length / 2 + 1 →
      c1 + kernel.length / 2 - y < o.rows ∧ c0 + kernel.length / 2 - x < o.cols) :
    convolve3 o l kernel c0 c1 c2 = .ok (∑ x ∈ Finset.range kernel.length, (∑ y ∈ Finset.range kernel.length,
      (if (c0 + kernel.length / 2 + 1 - o.rows ≤ x ∧ x < min kernel.length (c0 + kernel.length / 2 + 1)) ∧
          c1 + kernel.length / 2 + 1 - o.cols ≤ y ∧ y < min kernel.length (c1 + kernel.length / 2 + 1)
        then ∑ z ∈ Finset.range kernel.length,
          (if c2 + kernel.length / 2 + 1 - o.depth ≤ z ∧ z < min kernel.length (c2 + kernel.length / 2 + 1)
          then o.layersG l (c2 + kernel.length / 2 - z) (c1 + kernel.length / 2 - y) (c0 + kernel.length / 2 - x) *
            kernel.getD z 0 else 0) else 0) * kernel.getD y 0) * kernel.getD x 0) := by
  unfold convolve3
  simp only []
  generalize hm : kernel.length = m at *
  have hker : ∀ y, y < m → getR kernel y = .ok (kernel.getD y 0) := by
    intro y hy'
    rw [getR_of_lt (by omega)]
    simp [List.getD, List.getElem?_eq_getElem (show y < kernel.length by omega)]
  generalize hX : List.range' (c0 + m / 2 + 1 - o.rows) (min m (c0 + m / 2 + 1) - (c0 + m / 2 + 1 - o.rows)) = X
  generalize hY : List.range' (c1 + m / 2 + 1 - o.cols) (min m (c1 + m / 2 + 1) - (c1 + m / 2 + 1 - o.cols)) = Y
  have hXn : X.Nodup := by rw [← hX]; exact List.nodup_range'
  have hYn : Y.Nodup := by rw [← hY]; exact List.nodup_range'
  have hXm : ∀ x, x ∈ X ↔ (c0 + m / 2 + 1 - o.rows ≤ x ∧ x < min m (c0 + m / 2 + 1)) := by
    intro x; rw [← hX, List.mem_range'_1]; omega
  have hYm : ∀ y, y ∈ Y ↔ (c1 + m / 2 + 1 - o.cols ≤ y ∧ y < min m (c1 + m / 2 + 1)) := by
    intro y; rw [← hY, List.mem_range'_1]; omega
  rw [addVolume_ok kernel (fun z => kernel.getD z 0)
    (fun z y x => o.gauss l (c2 + m / 2 - z) (c1 + m / 2 - y) (c0 + m / 2 - x))
    (fun z y x => o.layersG l (c2 + m / 2 - z) (c1 + m / 2 - y) (c0 + m / 2 - x)) X Y hXn hYn]
  · rw [ok_bind, show List.replicate m (0 : G) = tab m (fun _ => 0) from by simp [tab]]
    rw [fold_rows (m := m) kernel _ (fun y => kernel.getD y 0) _ X hXn
      (fun x hx => by have := (hXm x).1 hx; omega) Y _ (fun y hy => hker y (by have := (hYm y).1 hy; omega))
      (fun _ _ _ _ => pure_eq_ok)]
    rw [ok_bind]
    rw [fold_dot (m := m) kernel (fun x => kernel.getD x 0) _ (List.range m)
      (fun x hx => List.mem_range.1 hx) (fun x hx => hker x (List.mem_range.1 hx))]
    rw [sum_map_range, zero_add]
    congr 1
    apply Finset.sum_congr rfl
    intro x _
    congr 1
    rw [zero_add]
    by_cases hx : x ∈ X
    · rw [if_pos hx, ← hY, sum_map_range' _ _ _ m (by omega), hY]
      apply Finset.sum_congr rfl
      intro y _
      by_cases hy : y ∈ Y
      · rw [if_pos ((hYm y).1 hy), if_pos ⟨hy, hx⟩, if_pos ⟨(hXm x).1 hx, (hYm y).1 hy⟩, zero_add,
          sum_map_range' _ _ _ m (by omega)]
      · rw [if_neg (fun h => hy ((hYm y).2 h)), if_neg (fun h => hy ((hYm y).2 h.2)), zero_mul]
    · rw [if_neg hx]
      symm
      apply Finset.sum_eq_zero
      intro y _
      rw [if_neg (fun h => hx ((hXm x).2 h.1)), zero_mul]
  · intro z hz
    rw [List.mem_range'_1] at hz
    exact hker z (by omega)
  · intro z hz y hy x hx
    rw [List.mem_range'_1] at hz
    have hy' := (hYm y).1 hy
    have hx' := (hXm x).1 hx
    have := hin x y (by omega) (by omega) (by omega) (by omega) (by omega) (by omega)
    unfold Finder3.gauss
    rw [if_pos ⟨hl, by omega, this.1, this.2⟩]

/-- **C70, volumes with as many rows as columns.** The response between two layers is the convolution of the layer below
with the cube of the kernel, the pixels out of the volume counting as zero. -/
theorem C70_volume_partial (o : Finder3 G) (l : Nat) (kernel : List G) (c0 c1 c2 : Nat) (hl : l < o.nbLayers + 3)
    (hsq : o.rows = o.cols) :
    convolve3 o l kernel c0 c1 c2 = .ok (∑ x ∈ Finset.range kernel.length, ∑ y ∈ Finset.range kernel.length,
      ∑ z ∈ Finset.range kernel.length, padded3 o l ((c2 : Int) + (kernel.length / 2 : Nat) - z)
        ((c1 : Int) + (kernel.length / 2 : Nat) - y) ((c0 : Int) + (kernel.length / 2 : Nat) - x) *
        kernel.getD z 0 * kernel.getD y 0 * kernel.getD x 0) := by
  rw [convolve3_sum o l kernel c0 c1 c2 hl (by intros; omega)]
  generalize kernel.length / 2 = h
  congr 1
  apply Finset.sum_congr rfl
  intro x hx
  have hx' := Finset.mem_range.1 hx
  rw [Finset.sum_mul]
  apply Finset.sum_congr rfl
  intro y hy
  have hy' := Finset.mem_range.1 hy
  rw [← Finset.sum_mul, ← Finset.sum_mul]
  congr 2
  by_cases hin : (c0 + h + 1 - o.rows ≤ x ∧ x < min kernel.length (c0 + h + 1)) ∧
      c1 + h + 1 - o.cols ≤ y ∧ y < min kernel.length (c1 + h + 1)
  · rw [if_pos hin]
    apply Finset.sum_congr rfl
    intro z hz
    have hz' := Finset.mem_range.1 hz
    by_cases hin' : c2 + h + 1 - o.depth ≤ z ∧ z < min kernel.length (c2 + h + 1)
    · rw [if_pos hin', padded3, if_pos (by omega)]
      rw [show ((c1 : Int) + h - y).toNat = c1 + h - y from by omega,
        show ((c0 : Int) + h - x).toNat = c0 + h - x from by omega,
        show ((c2 : Int) + h - z).toNat = c2 + h - z from by omega]
    · rw [if_neg hin', padded3, if_neg (by omega), zero_mul]
  · rw [if_neg hin]
    symm
    apply Finset.sum_eq_zero
    intro z _
    rw [padded3, if_neg (by omega), zero_mul]

example : (exBall [2, 3, 3, 4] 12).rows = (exBall [2, 3, 3, 4] 12).cols := by decide

/-- **C70 fails for volumes with more columns than rows**: the columns are clipped with the number of rows, so that far
enough along the rows the response between two layers is zero whatever the volume. -/
theorem C70_volume_wide_counterexample (o : Finder3 G) (l : Nat) (kernel : List G) (c0 c1 c2 : Nat)
    (hl : l < o.nbLayers + 3) (hc : o.rows + kernel.length ≤ c0 + kernel.length / 2 + 1) :
    convolve3 o l kernel c0 c1 c2 = .ok 0 := by
  rw [convolve3_sum o l kernel c0 c1 c2 hl (by intros; omega)]
  congr 1
  apply Finset.sum_eq_zero
  intro x _
  rw [Finset.sum_eq_zero, zero_mul]
  intro y _
  rw [if_neg (by omega), zero_mul]

example : 3 + [1 / 4, 1 / 2, (1 / 4 : ℚ)].length ≤ 5 + [1 / 4, 1 / 2, (1 / 4 : ℚ)].length / 2 + 1 := by
  simp

/-! ## C69: lines -/

variable [IsStrictOrderedRing G]

omit [IsStrictOrderedRing G] in
theorem spatial1_ok (o : Finder G) (i k : Nat) (hk : k < o.nbLayers + 2) (hi : 1 ≤ i) (hi' : i + 1 < o.height)
    (hw : 0 < o.width) : ∃ v, spatialSubpix1 o i k = .ok
      ((Ext.div ((o.layersG (posLayer k) 0 (i + 1) - o.layersG (posLayer k) 0 (i - 1)) / 2)
        (o.layersG (posLayer k) 0 (i + 1) - 2 * o.layersG (posLayer k) 0 i + o.layersG (posLayer k) 0 (i - 1))).subFrom
        ((i : G) + 1 / 2), v) := by
  unfold spatialSubpix1
  have hl : posLayer k < o.nbLayers + 3 := by unfold posLayer; split <;> omega
  simp only [Finder.gauss, Finder.layer]
  rw [show (if 0 < k then k - 1 else k) = posLayer k from rfl]
  rw [if_pos (⟨hl, hw, by omega⟩ : posLayer k < o.nbLayers + 3 ∧ 0 < o.width ∧ i + 1 < o.height),
    if_pos (⟨hl, hw, by omega⟩ : posLayer k < o.nbLayers + 3 ∧ 0 < o.width ∧ i - 1 < o.height),
    if_pos (⟨hl, hw, by omega⟩ : posLayer k < o.nbLayers + 3 ∧ 0 < o.width ∧ i < o.height), if_pos (by omega)]
  exact ⟨_, rfl⟩

/-- **C69, exactness in one dimension.** When the Gaussian layer below the detected scale is a parabola the position is the
place of its extremum. -/
theorem C69_line_exact (o : Finder G) (i k : Nat) (hk : 1 ≤ k) (hk' : k < o.nbLayers + 2) (hi : 1 ≤ i)
    (hi' : i + 1 < o.height) (hw : 0 < o.width) (a c x0 : G) (ha : a ≠ 0)
    (hx : ∀ x, i ≤ x + 1 → x ≤ i + 1 → o.layersG (k - 1) 0 x = a * ((x : G) + 1 / 2 - x0) ^ 2 + c) :
    ∃ v, spatialSubpix1 o i k = .ok (.fin x0, v) := by
  obtain ⟨v, hv⟩ := spatial1_ok o i k hk' hi hi' hw
  refine ⟨v, ?_⟩
  rw [hv, posLayer, if_pos (by omega), hx (i - 1) (by omega) (by omega), hx i (by omega) (by omega),
    hx (i + 1) (by omega) (by omega)]
  push_cast [Nat.cast_sub hi]
  have e : a * ((i : G) + 1 + 1 / 2 - x0) ^ 2 + c - 2 * (a * ((i : G) + 1 / 2 - x0) ^ 2 + c) +
      (a * ((i : G) - 1 + 1 / 2 - x0) ^ 2 + c) = 2 * a := by ring
  have e2 : (a * ((i : G) + 1 + 1 / 2 - x0) ^ 2 + c - (a * ((i : G) - 1 + 1 / 2 - x0) ^ 2 + c)) / 2 =
      2 * a * ((i : G) + 1 / 2 - x0) := by ring
  rw [e, e2, Ext.div, if_neg (mul_ne_zero two_ne_zero ha), mul_div_cancel_left₀ _ (mul_ne_zero two_ne_zero ha)]
  simp [Ext.subFrom]

/-- **C69, in one dimension, when the pixel is a maximum of the Gaussian layer below**: the position is inside the pixel.
Missing for the full claim: as in two dimensions, nothing makes the detected pixels maxima of a Gaussian layer. -/
theorem C69_line_inside_partial (o : Finder G) (i k : Nat) (hk : 1 ≤ k) (hk' : k < o.nbLayers + 2) (hi : 1 ≤ i)
    (hi' : i + 1 < o.height) (hw : 0 < o.width) (h1 : o.layersG (k - 1) 0 (i - 1) < o.layersG (k - 1) 0 i)
    (h2 : o.layersG (k - 1) 0 (i + 1) < o.layersG (k - 1) 0 i) :
    ∃ x v, spatialSubpix1 o i k = .ok (.fin x, v) ∧ (i : G) < x ∧ x < i + 1 := by
  obtain ⟨v, hv⟩ := spatial1_ok o i k hk' hi hi' hw
  rw [posLayer, if_pos (by omega)] at hv
  have hne : o.layersG (k - 1) 0 (i + 1) - 2 * o.layersG (k - 1) 0 i + o.layersG (k - 1) 0 (i - 1) ≠ 0 := by
    intro h; linarith
  have hp := parabola_near i _ _ _ h1 h2
  refine ⟨parabola i (o.layersG (k - 1) 0 (i - 1)) (o.layersG (k - 1) 0 i) (o.layersG (k - 1) 0 (i + 1)), v, ?_, hp⟩
  rw [hv, Ext.div, if_neg hne, Ext.subFrom, parabola]
  simp only [if_neg hne]

/-- A smooth signal whose top is at 47/10. -/
example : ∃ o : Finder ℚ, 0 < o.width ∧ (4 : Nat) + 1 < o.height ∧
    (∀ x, 4 ≤ x + 1 → x ≤ 4 + 1 → o.layersG (1 - 1) 0 x = -1 * ((x : ℚ) + 1 / 2 - 47 / 10) ^ 2 + 0) ∧
    o.layersG (1 - 1) 0 (4 - 1) < o.layersG (1 - 1) 0 4 ∧ o.layersG (1 - 1) 0 (4 + 1) < o.layersG (1 - 1) 0 4 := by
  refine ⟨⟨1, 1, 9, [2, 2, 3, 4], fun _ _ i => -((i : ℚ) + 1 / 2 - 47 / 10) ^ 2, fun _ _ _ => 0⟩, by decide, by decide,
    ?_, by norm_num, by norm_num⟩
  intro x _ _; simp only; ring

/-- **C69 fails in one dimension**: where the Gaussian layer is flat the position is not a number (in two dimensions it is
the center of the pixel). -/
theorem C69_line_nan_counterexample (o : Finder G) (i k : Nat) (hk : 1 ≤ k) (hk' : k < o.nbLayers + 2) (hi : 1 ≤ i)
    (hi' : i + 1 < o.height) (hw : 0 < o.width) (c : G)
    (hx : ∀ x, i ≤ x + 1 → x ≤ i + 1 → o.layersG (k - 1) 0 x = c) : ∃ v, spatialSubpix1 o i k = .ok (.nan, v) := by
  obtain ⟨v, hv⟩ := spatial1_ok o i k hk' hi hi' hw
  refine ⟨v, ?_⟩
  rw [hv, posLayer, if_pos (by omega), hx (i - 1) (by omega) (by omega), hx i (by omega) (by omega),
    hx (i + 1) (by omega) (by omega), Ext.div, if_pos (by ring), if_pos (by ring)]
  rfl

/-- **C69, scale in one dimension**: what is found when the difference of the responses at `s + 1` and `s` is a parabola in
`s` (and the response a polynomial of degree three, with `s0 + 1/2` its inflexion): not the place `s0` of the extremum. -/
theorem C69_line_scale_counterexample (p : G) (l : Nat) (A B D s0 : G) (hA : A ≠ 0) :
    (∀ s, (A * ((s + 1) - (s0 + 1 / 2)) ^ 3 + B * (s + 1) + D) - (A * (s - (s0 + 1 / 2)) ^ 3 + B * s + D) =
      3 * A * (s - s0) ^ 2 + (A / 4 + B)) ∧
    scaleSubpix1 p (fun s => .ok (A * (s - (s0 + 1 / 2)) ^ 3 + B * s + D)) l = .ok (.fin
      (s0 + 545 / 1000 - p - 13 / 100 * (l - s0) + 8 / 100 * (l - s0) ^ 2 + 25 / 1000 * (l - 1))) := by
  refine ⟨fun s => by ring, ?_⟩
  unfold scaleSubpix1
  rw [mapM_tab _ (fun u => A * (((l : G) - 3 * (1 / 3) + (u : Nat) * (1 / 3)) - (s0 + 1 / 2)) ^ 3 +
    B * ((l : G) - 3 * (1 / 3) + (u : Nat) * (1 / 3)) + D) 7 (fun _ _ => rfl), ok_bind]
  simp only [tab, List.range_succ, List.range_zero, List.nil_append, List.cons_append, List.map_cons, List.map_nil,
    List.getD_cons_zero, List.getD_cons_succ]
  generalize (l : G) = L
  push_cast
  have e : A * (L - 3 * (1 / 3) + 6 * (1 / 3) - (s0 + 1 / 2)) ^ 3 + B * (L - 3 * (1 / 3) + 6 * (1 / 3)) + D -
      3 * (A * (L - 3 * (1 / 3) + 4 * (1 / 3) - (s0 + 1 / 2)) ^ 3 + B * (L - 3 * (1 / 3) + 4 * (1 / 3)) + D) +
      3 * (A * (L - 3 * (1 / 3) + 2 * (1 / 3) - (s0 + 1 / 2)) ^ 3 + B * (L - 3 * (1 / 3) + 2 * (1 / 3)) + D) -
      (A * (L - 3 * (1 / 3) + 0 * (1 / 3) - (s0 + 1 / 2)) ^ 3 + B * (L - 3 * (1 / 3) + 0 * (1 / 3)) + D) =
      16 / 9 * A := by ring
  have e2 : 2 * (1 / 3) * (A * (L - 3 * (1 / 3) + 5 * (1 / 3) - (s0 + 1 / 2)) ^ 3 + B * (L - 3 * (1 / 3) + 5 * (1 / 3)) +
      D - 2 * (A * (L - 3 * (1 / 3) + 3 * (1 / 3) - (s0 + 1 / 2)) ^ 3 + B * (L - 3 * (1 / 3) + 3 * (1 / 3)) + D) +
      (A * (L - 3 * (1 / 3) + 1 * (1 / 3) - (s0 + 1 / 2)) ^ 3 + B * (L - 3 * (1 / 3) + 1 * (1 / 3)) + D)) =
      16 / 9 * A * (L - s0 - 1 / 2) := by ring
  have hA2 : 16 / 9 * A ≠ 0 := mul_ne_zero (by norm_num) hA
  rw [e, e2, Ext.div, if_neg hA2, mul_div_cancel_left₀ _ hA2]
  simp only [pure_eq_ok]
  congr 2
  ring

/-- The scale can be as far as one wants: here the difference of the responses has a strict minimum at the layer 2 among the
layers 1, 2, 3. (That the responses are blurs of one another is not asked for.) -/
theorem C69_line_far_counterexample (p far : G) (hp : 0 ≤ p) (hp1 : p ≤ 1) : ∃ resp : G → G,
    resp 3 - resp 2 < resp 2 - resp 1 ∧ resp 3 - resp 2 < resp 4 - resp 3 ∧
    ∃ s, scaleSubpix1 p (fun s => .ok (resp s)) 2 = .ok (.fin s) ∧ far < s := by
  -- responses 0, 0, -1, 0 at 1, 2, 3, 4; free in between
  let t : G := -(1 + |far|)
  let resp : G → G := fun s => if s = 4 / 3 then 0 else if s = 5 / 3 then 0 else if s = 7 / 3 then -(2 / 3)
    else if s = 8 / 3 then 3 / 2 * t else if s = 3 then -1 else 0
  have hv : ∀ u : Nat, u < 7 → resp (((2 : Nat) : G) - 3 * (1 / 3) + (u : Nat) * (1 / 3)) =
      [0, 0, 0, 0, -(2 / 3), 3 / 2 * t, -1].getD u 0 := by
    intro u hu
    have h : u = 0 ∨ u = 1 ∨ u = 2 ∨ u = 3 ∨ u = 4 ∨ u = 5 ∨ u = 6 := by omega
    rcases h with rfl | rfl | rfl | rfl | rfl | rfl | rfl <;> simp only [resp] <;> norm_num
  have ht : t ≤ -1 := by simp only [t]; linarith [abs_nonneg far]
  have htf : far ≤ -t := by simp only [t]; linarith [le_abs_self far]
  refine ⟨resp, ?_, ?_, (2 : G) - 105 / 100 * t + 8 / 100 * t ^ 2 - p + 25 / 1000 * 2 - 25 / 1000, ?_, ?_⟩
  · simp only [resp]; norm_num
  · simp only [resp]; norm_num
  · unfold scaleSubpix1
    rw [mapM_tab _ (fun u => [0, 0, 0, 0, -(2 / 3), 3 / 2 * t, -1].getD u 0) 7 (fun u hu => congrArg Except.ok (hv u hu)), ok_bind]
    simp only [tab, List.range_succ, List.range_zero, List.nil_append, List.cons_append, List.map_cons, List.map_nil,
      List.getD_cons_zero, List.getD_cons_succ]
    rw [Ext.div, if_neg (by norm_num)]
    simp only [pure_eq_ok]
    congr 2
    push_cast
    ring
  · nlinarith [sq_nonneg t]

example : (0 : ℚ) ≤ 1 / 2 ∧ (1 / 2 : ℚ) ≤ 1 := by norm_num

end Octave
end Colloids
