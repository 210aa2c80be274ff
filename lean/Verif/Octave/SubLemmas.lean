import Verif.Octave.SubModel
import Verif.Octave.Lemmas3
import Verif.Recon.GrowLemmas
import Mathlib.Algebra.BigOperators.Group.Finset.Basic
import Mathlib.Algebra.BigOperators.Group.Finset.Piecewise
import Mathlib.Algebra.BigOperators.Ring.Finset
import Mathlib.Tactic.Ring

/-! # Helper lemmas for the subpixel and subscale resolution -/

namespace Colloids
namespace Octave

variable {G : Type} [Field G] [LinearOrder G]

/-- Adding to distinct cells of a table. -/
theorem fold_modify_add {m : Nat} (v : Nat → G) (read : Nat → R G) : ∀ (l : List Nat)
    (f : Nat → G), l.Nodup → (∀ x ∈ l, x < m) → (∀ x ∈ l, read x = .ok (v x)) → ∀ w : G,
    l.foldlM (fun gx x => do
      let a ← read x
      modifyR gx x (fun b => b + a * w)) (tab m f) =
      .ok (tab m (fun x => f x + if x ∈ l then v x * w else 0)) := by
  intro l
  induction l with
  | nil => intro f _ _ _ w; simp [List.foldlM_nil, pure_eq_ok]
  | cons a l ih =>
    intro f hn hm hr w
    rw [List.foldlM_cons]
    simp only [hr a (by simp), ok_bind]
    rw [Recon.modifyR_tab _ (hm a (by simp)), ok_bind,
      ih _ (List.nodup_cons.1 hn).2 (fun x hx => hm x (by simp [hx]))
        (fun x hx => hr x (by simp [hx]))]
    congr 1
    apply tab_congr
    intro x _
    have hna := (List.nodup_cons.1 hn).1
    by_cases hxa : x = a
    · subst hxa; simp [hna]
    · simp [hxa]

/-- The rows of the convolution. -/
theorem fold_rows {m : Nat} (kernel : List G) (v : Nat → Nat → G) (ker : Nat → G)
    (read : Nat → Nat → R G) (X : List Nat) (hX : X.Nodup) (hXm : ∀ x ∈ X, x < m) :
    ∀ (l : List Nat) (f : Nat → G), (∀ y ∈ l, getR kernel y = .ok (ker y)) →
    (∀ y ∈ l, ∀ x ∈ X, read y x = .ok (v y x)) →
    l.foldlM (fun gx y => do
      let w ← getR kernel y
      X.foldlM (fun gx x => do
        let a ← read y x
        modifyR gx x (fun b => b + a * w)) gx) (tab m f) =
      .ok (tab m (fun x => f x + if x ∈ X then (l.map (fun y => v y x * ker y)).sum else 0)) := by
  intro l
  induction l with
  | nil => intro f _ _; simp [List.foldlM_nil, pure_eq_ok]
  | cons a l ih =>
    intro f hk hr
    rw [List.foldlM_cons]
    simp only [hk a (by simp), ok_bind]
    rw [fold_modify_add (v a) (read a) X f hX hXm (hr a (by simp)) (ker a), ok_bind,
      ih _ (fun y hy => hk y (by simp [hy])) (fun y hy => hr y (by simp [hy]))]
    congr 1
    apply tab_congr
    intro x _
    by_cases hx : x ∈ X
    · simp [hx, add_assoc]
    · simp [hx]

theorem fold_dot {m : Nat} (kernel : List G) (ker f : Nat → G) (l : List Nat)
    (hl : ∀ x ∈ l, x < m) (hk : ∀ x ∈ l, getR kernel x = .ok (ker x)) : ∀ r : G,
    l.foldlM (fun resp x => do
      let a ← getR (tab m f) x
      let w ← getR kernel x
      pure (resp + a * w)) r = .ok (r + (l.map (fun x => f x * ker x)).sum) := by
  induction l with
  | nil => intro r; simp [List.foldlM_nil, pure_eq_ok]
  | cons a l ih =>
    intro r
    rw [List.foldlM_cons]
    simp only [getR_tab (hl a (by simp)), hk a (by simp), ok_bind, pure_eq_ok]
    have := ih (fun x hx => hl x (by simp [hx])) (fun x hx => hk x (by simp [hx])) (r + f a * ker a)
    simp only [pure_eq_ok] at this
    rw [this]
    simp [add_assoc]

theorem sum_map_range (f : Nat → G) (m : Nat) :
    ((List.range m).map f).sum = ∑ x ∈ Finset.range m, f x := by
  induction m with
  | zero => simp
  | succ m ih => rw [List.range_succ, List.map_append, List.sum_append, ih, Finset.sum_range_succ]; simp

/-- A sum over an interval of indices as a sum over all of them. -/
theorem sum_map_range' (f : Nat → G) (a b m : Nat) (h : b ≤ m) :
    ((List.range' a (b - a)).map f).sum =
      ∑ x ∈ Finset.range m, if a ≤ x ∧ x < b then f x else 0 := by
  induction m generalizing b with
  | zero =>
    have : b = 0 := by omega
    subst this; simp
  | succ m ih =>
    rw [Finset.sum_range_succ]
    by_cases hb : b ≤ m
    · rw [← ih b hb, if_neg (by omega), add_zero]
    · have hb' : b = m + 1 := by omega
      subst hb'
      by_cases ha : a ≤ m
      · rw [if_pos ⟨ha, by omega⟩, show m + 1 - a = (m - a) + 1 from by omega,
          List.range'_concat, List.map_append, List.sum_append, ih m (le_refl _)]
        congr 1
        · apply Finset.sum_congr rfl
          intro x hx
          have := Finset.mem_range.1 hx
          by_cases hax : a ≤ x
          · rw [if_pos ⟨hax, this⟩, if_pos ⟨hax, by omega⟩]
          · rw [if_neg (by omega), if_neg (by omega)]
        · simp; congr 1; omega
      · have : m + 1 - a = 0 := by omega
        rw [this, if_neg (by omega)]
        simp only [List.range'_zero, List.map_nil, List.sum_nil, add_zero]
        symm
        apply Finset.sum_eq_zero
        intro x hx
        have := Finset.mem_range.1 hx
        rw [if_neg (by omega)]

/-- The pixel of the layer `k` at row `r` and column `c`, zero outside of the image. -/
def padded (o : Finder G) (k : Nat) (r c : Int) : G :=
  if 0 ≤ r ∧ r < o.width ∧ 0 ≤ c ∧ c < o.height then o.layersG k r.toNat c.toNat else 0

/-- What `convolve2` computes when it does not read out of the image. -/
theorem convolve2_sum (o : Finder G) (k : Nat) (kernel : List G) (c0 c1 : Nat)
    (hk : k < o.nbLayers + 3)
    (hin : ∀ x y, c0 + kernel.length / 2 + 1 - o.width ≤ x → x < kernel.length →
      x < c0 + kernel.length / 2 + 1 → c1 + kernel.length / 2 + 1 - o.height ≤ y →
      y < kernel.length → y < c1 + kernel.length / 2 + 1 →
      c1 + kernel.length / 2 - y < o.width ∧ c0 + kernel.length / 2 - x < o.height) :
    convolve2 o k kernel c0 c1 = .ok (∑ x ∈ Finset.range kernel.length,
      (if c0 + kernel.length / 2 + 1 - o.width ≤ x ∧ x < min kernel.length (c0 + kernel.length / 2 + 1)
        then ∑ y ∈ Finset.range kernel.length,
          (if c1 + kernel.length / 2 + 1 - o.height ≤ y ∧
            y < min kernel.length (c1 + kernel.length / 2 + 1)
          then o.layersG k (c1 + kernel.length / 2 - y) (c0 + kernel.length / 2 - x) *
            kernel.getD y 0 else 0) else 0) * kernel.getD x 0) := by
  unfold convolve2
  simp only []
  generalize hm : kernel.length = m at *
  have hker : ∀ y, y < m → getR kernel y = .ok (kernel.getD y 0) := by
    intro y hy'
    rw [getR_of_lt (by omega)]
    simp [List.getD, List.getElem?_eq_getElem (show y < kernel.length by omega)]
  rw [show List.replicate m (0 : G) = tab m (fun _ => 0) from by simp [tab]]
  rw [fold_rows (m := m) kernel
    (fun y x => o.layersG k (c1 + m / 2 - y) (c0 + m / 2 - x)) (fun y => kernel.getD y 0)
    (fun y x => o.gauss k (c1 + m / 2 - y) (c0 + m / 2 - x)) _ List.nodup_range']
  · rw [ok_bind]
    rw [fold_dot (m := m) kernel (fun x => kernel.getD x 0) _ (List.range m)
      (fun x hx => List.mem_range.1 hx) (fun x hx => hker x (List.mem_range.1 hx))]
    rw [sum_map_range, zero_add]
    congr 1
    apply Finset.sum_congr rfl
    intro x hxm
    congr 1
    rw [zero_add]
    rw [sum_map_range' _ _ _ m (by omega)]
    have : x ∈ List.range' (c0 + m / 2 + 1 - o.width)
        (min m (c0 + m / 2 + 1) - (c0 + m / 2 + 1 - o.width)) ↔
        c0 + m / 2 + 1 - o.width ≤ x ∧ x < min m (c0 + m / 2 + 1) := by
      rw [List.mem_range'_1]; omega
    simp only [this]
  · intro x hx'
    rw [List.mem_range'_1] at hx'
    omega
  · intro y hy'
    rw [List.mem_range'_1] at hy'
    exact hker y (by omega)
  · intro y hy' x hx'
    rw [List.mem_range'_1] at hy' hx'
    unfold Finder.gauss
    rw [if_pos ⟨hk, hin x y (by omega) (by omega) (by omega) (by omega) (by omega) (by omega)⟩]

end Octave
end Colloids
