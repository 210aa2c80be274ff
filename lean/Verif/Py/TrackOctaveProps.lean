import Mathlib.Analysis.SpecialFunctions.Pow.Real
import Verif.Py.TrackPeakProps
import Verif.Py.TrackBlurProps

/-!
# `OctaveBlobFinder` of `python/colloids/track.py`
-/

namespace Colloids
namespace Py
namespace Track

section Minima

variable {F : Type} [Field F] [LinearOrder F]

omit [Field F] in
theorem foldl_min_eq (l : List F) (a : F) : a = l.foldl min a ↔ ∀ x ∈ l, a ≤ x :=
  foldl_max_eq (F := Fᵒᵈ) l a

theorem eroded_iff {n H W : Nat} (d : Nat → Nat → Nat → F) {l i j : Nat} (hl : 1 ≤ l) (hl' : l + 1 < n)
    (hi : 1 ≤ i) (hi' : i + 1 < H) (hj : 1 ≤ j) (hj' : j + 1 < W) :
    d l i j = eroded n H W d l i j ↔
      ∀ t u v, l ≤ t + 1 → t ≤ l + 1 → i ≤ u + 1 → u ≤ i + 1 → j ≤ v + 1 → v ≤ j + 1 → d l i j ≤ d t u v := by
  unfold eroded
  rw [foldl_min_eq]
  constructor
  · intro h t u v a1 a2 h1 h2 h3 h4
    exact h _ (List.mem_flatMap.2 ⟨t, (mem_three hl hl').2 ⟨a1, a2⟩, List.mem_flatMap.2 ⟨u,
      (mem_three hi hi').2 ⟨h1, h2⟩, List.mem_map.2 ⟨v, (mem_three hj hj').2 ⟨h3, h4⟩, rfl⟩⟩⟩)
  · intro h x hx
    obtain ⟨t, ht, hx⟩ := List.mem_flatMap.1 hx
    obtain ⟨u, hu, hx⟩ := List.mem_flatMap.1 hx
    obtain ⟨v, hv, rfl⟩ := List.mem_map.1 hx
    have ht' := (mem_three hl hl').1 ht
    have hu' := (mem_three hi hi').1 hu
    have hv' := (mem_three hj hj').1 hv
    exact h t u v ht'.1 ht'.2 hu'.1 hu'.2 hv'.1 hv'.2

variable [IsStrictOrderedRing F]

/-- **C194** Without a limit on elongated blobs, the centers found in an octave are exactly the pixels of the inner
layers, at the size of the blob or more from the edges, negative (or lower than the limit), that are not
higher than any of their 26 neighbours in space and scale. -/
theorem C194_minima (n H W : Nat) (d : Nat → Nat → Nat → F) (sizes : Nat → Nat) (maxedge : F) (hm : maxedge ≤ 0)
    (maxDoG : Option F) (l i j : Nat) (hl : l < n) (hs : sizes l ≠ 0) :
    ocBinary n H W d sizes maxedge maxDoG l i j = true ↔
      (1 ≤ l ∧ l + 1 < n) ∧ (sizes l ≤ i ∧ i + sizes l < H ∧ sizes l ≤ j ∧ j + sizes l < W) ∧
      (d l i j ≠ 0 ∧ (maxDoG = none → d l i j < 0) ∧ ∀ m, maxDoG = some m → d l i j < m) ∧
      ∀ t u v, l ≤ t + 1 → t ≤ l + 1 → i ≤ u + 1 → u ≤ i + 1 → j ≤ v + 1 → v ≤ j + 1 → d l i j ≤ d t u v := by
  unfold ocBinary keptAxis
  rw [if_neg (not_lt.2 hm), if_neg hs, if_neg hs]
  have hsq : 1 < d l i j ^ 2 + 1 ↔ d l i j ≠ 0 := by
    constructor
    · intro h e
      rw [e] at h
      norm_num at h
    · intro h
      have := sq_pos_of_ne_zero h
      linarith
  have hlayer : (l ≠ 0 ∧ l ≠ n - 1) ↔ (1 ≤ l ∧ l + 1 < n) := by omega
  have hdog : d l i j < maxDoG.getD 0 ↔
      ((maxDoG = none → d l i j < 0) ∧ ∀ m, maxDoG = some m → d l i j < m) := by
    cases maxDoG <;> simp
  simp only [Bool.and_eq_true, decide_eq_true_eq, hsq, hlayer, hdog, and_true]
  constructor
  · rintro ⟨⟨⟨⟨h1, h2⟩, h3⟩, h4⟩, ⟨h5, h6⟩, h7, h8⟩
    exact ⟨h4, ⟨h7, h8, h5, h6⟩, ⟨h3, h2⟩, (eroded_iff d h4.1 h4.2 (by omega) (by omega) (by omega)
      (by omega)).1 h1⟩
  · rintro ⟨h4, ⟨h7, h8, h5, h6⟩, ⟨h3, h2⟩, h1⟩
    exact ⟨⟨⟨⟨(eroded_iff d h4.1 h4.2 (by omega) (by omega) (by omega) (by omega)).2 h1, h2⟩, h3⟩, h4⟩,
      ⟨h5, h6⟩, h7, h8⟩

/-- a minimum of five layers of 9 pixels -/
example : ocBinary 5 9 9 (fun l i j => if l = 2 ∧ i = 4 ∧ j = 4 then (-1 : ℚ) else 0) (fun _ => 3) (-1) none 2 4 4
    = true := by
  rw [C194_minima _ _ _ _ _ _ (by norm_num) _ _ _ _ (by norm_num) (by norm_num)]
  refine ⟨by omega, by omega, ⟨by norm_num, by norm_num, by simp⟩, fun t u v _ _ _ _ _ _ => ?_⟩
  simp only [and_self, if_true]
  split <;> norm_num

omit [IsStrictOrderedRing F] in
/-- **C194, counterexample** A layer whose size is rounded to zero has no center at all: the edge to remove, of no
pixel, is the whole image. -/
theorem C194_zero_size_counterexample (n H W : Nat) (d : Nat → Nat → Nat → F) (sizes : Nat → Nat) (maxedge : F)
    (maxDoG : Option F) (l i j : Nat) (hs : sizes l = 0) :
    ocBinary n H W d sizes maxedge maxDoG l i j = false := by
  unfold ocBinary keptAxis
  simp [hs]

end Minima

section Subpix

variable {F : Type} [Field F] [LinearOrder F] [IsStrictOrderedRing F]

/-- a weighted mean with weights of the same sign is between the bounds of what is averaged -/
theorem mean_between {α : Type} (m : List α) (w c : α → F) (lo hi : F) (hw : ∀ x ∈ m, w x ≤ 0)
    (hneg : ∃ x ∈ m, w x < 0) (hc : ∀ x ∈ m, lo ≤ c x ∧ c x ≤ hi) :
    (m.map w).sum < 0 ∧ lo ≤ (m.map fun x => w x * c x).sum / (m.map w).sum ∧
      (m.map fun x => w x * c x).sum / (m.map w).sum ≤ hi := by
  have h1 : ∀ m : List α, (∀ x ∈ m, w x ≤ 0) → (m.map w).sum ≤ 0 := by
    intro m hm
    induction m with
    | nil => simp
    | cons a m ih =>
      rw [List.map_cons, List.sum_cons]
      have := ih fun x hx => hm x (List.mem_cons_of_mem _ hx)
      have := hm a (by simp)
      linarith
  have hs : (m.map w).sum < 0 := by
    obtain ⟨x, hx, hx0⟩ := hneg
    obtain ⟨s, t, rfl⟩ := List.append_of_mem hx
    have a1 := h1 s fun y hy => hw y (by simp [hy])
    have a2 := h1 t fun y hy => hw y (by simp [hy])
    simp only [List.map_append, List.map_cons, List.sum_append, List.sum_cons]
    linarith
  have h2 : ∀ m : List α, (∀ x ∈ m, w x ≤ 0) → (∀ x ∈ m, lo ≤ c x ∧ c x ≤ hi) →
      hi * (m.map w).sum ≤ (m.map fun x => w x * c x).sum ∧
      (m.map fun x => w x * c x).sum ≤ lo * (m.map w).sum := by
    intro m hm hcm
    induction m with
    | nil => simp
    | cons a m ih =>
      simp only [List.map_cons, List.sum_cons]
      obtain ⟨i1, i2⟩ := ih (fun x hx => hm x (List.mem_cons_of_mem _ hx))
        (fun x hx => hcm x (List.mem_cons_of_mem _ hx))
      have ha := hm a (by simp)
      obtain ⟨c1, c2⟩ := hcm a (by simp)
      constructor <;> nlinarith
  obtain ⟨b1, b2⟩ := h2 m hw hc
  refine ⟨hs, ?_, ?_⟩
  · rw [le_div_iff_of_neg hs]; exact b2
  · rw [div_le_iff_of_neg hs]; exact b1

theorem mem_window {r : Nat} {x : Nat × Nat × Nat} :
    x ∈ window r ↔ x.1 < 3 ∧ x.2.1 ≤ 2 * r ∧ x.2.2 ≤ 2 * r := by
  obtain ⟨t, u, v⟩ := x
  unfold window
  simp only [List.mem_flatMap, List.mem_range, List.mem_map, Prod.mk.injEq]
  constructor
  · rintro ⟨t', ht, u', hu, v', hv, rfl, rfl, rfl⟩
    omega
  · rintro ⟨h1, h2, h3⟩
    exact ⟨t, h1, u, by omega, v, by omega, rfl, rfl, rfl⟩

omit [Field F] [IsStrictOrderedRing F] in
theorem le_foldl_max (l : List F) (a : F) : a ≤ l.foldl max a ∧ ∀ x ∈ l, x ≤ l.foldl max a := by
  induction l generalizing a with
  | nil => simp
  | cons b l ih =>
    obtain ⟨h1, h2⟩ := ih (max a b)
    rw [List.foldl_cons]
    refine ⟨(le_max_left a b).trans h1, fun x hx => ?_⟩
    rcases List.mem_cons.1 hx with rfl | hx
    · exact (le_max_right a x).trans h1
    · exact h2 x hx

theorem mass_between (label : Labeller3) (hlab : ∀ f x, label f x = 0 ↔ f x = false)
    (d : Nat → Nat → Nat → F) (r : Nat) (p : Nat × Nat × Nat)
    (hp : 1 ≤ p.1 ∧ r ≤ p.2.1 ∧ r ≤ p.2.2) (hneg : d p.1 p.2.1 p.2.2 < 0)
    (coord : Nat × Nat × Nat → Nat) (hc : ∀ x ∈ window r, coord x ≤ 2 * r) :
    ∃ c, massCenter coord (massOf label d r p) = some c ∧ 0 ≤ c ∧ c ≤ 2 * (r : F) := by
  set ngb := fun (x : Nat × Nat × Nat) => d (p.1 + x.1 - 1) (p.2.1 + x.2.1 - r) (p.2.2 + x.2.2 - r) with hngb
  have hcen : ngb (1, r, r) = d p.1 p.2.1 p.2.2 := by
    simp only [hngb]
    congr 1 <;> omega
  set labels := label fun x => decide (ngb x < 0) with hlabels
  set here := (window r).filter fun x => labels x == labels (1, r, r) with hhere
  set ped := (here.map ngb).foldl max (ngb (1, r, r)) with hped
  set w := fun x => if ped ≠ ngb (1, r, r) then ngb x - ped else ngb x with hwdef
  have hm : massOf label d r p = here.map fun x => (x, w x) := rfl
  have hlc : labels (1, r, r) ≠ 0 := by
    intro h
    have := (hlab _ _).1 h
    rw [decide_eq_false_iff_not, hcen] at this
    exact this hneg
  have hin : (1, r, r) ∈ here := List.mem_filter.2 ⟨mem_window.2 ⟨by norm_num, by simp; omega, by simp; omega⟩, by simp⟩
  have hall : ∀ x ∈ here, ngb x < 0 := by
    intro x hx
    have h1 := (List.mem_filter.1 hx).2
    rw [beq_iff_eq] at h1
    by_contra hn
    exact hlc (h1 ▸ (hlab (fun x => decide (ngb x < 0)) x).2 (decide_eq_false hn))
  obtain ⟨p1, p2⟩ := le_foldl_max (here.map ngb) (ngb (1, r, r))
  have hw : ∀ x ∈ here, w x ≤ 0 := by
    intro x hx
    simp only [hwdef]
    split
    · have := p2 (ngb x) (List.mem_map_of_mem hx)
      rw [← hped] at this
      linarith
    · exact (hall x hx).le
  have hw1 : w (1, r, r) < 0 := by
    simp only [hwdef]
    split
    · rename_i hne
      have : ngb (1, r, r) < ped := lt_of_le_of_ne p1 (Ne.symm hne)
      linarith
    · exact hall _ hin
  obtain ⟨b1, b2, b3⟩ := mean_between here w (fun x => (coord x : F)) 0 (2 * (r : F)) hw ⟨_, hin, hw1⟩
    (fun x hx => ⟨Nat.cast_nonneg _, by exact_mod_cast hc x (List.mem_filter.1 hx).1⟩)
  refine ⟨_, ?_, b2, b3⟩
  unfold massCenter quot
  rw [hm]
  simp only [List.map_map, Function.comp_def]
  rw [if_neg b1.ne]

/-- **C194** The position of a blob is refined by no more than the size of the blob in space, and by no more than
half a layer in scale. -/
theorem C194_subpix (label : Labeller3) (hlab : ∀ f x, label f x = 0 ↔ f x = false)
    (n H W : Nat) (d : Nat → Nat → Nat → F) (sizes : Nat → Nat) (maxedge : F) (hm : maxedge ≤ 0)
    (l i j : Nat) (hl : l < n) (hs : sizes l ≠ 0)
    (h : ocBinary n H W d sizes maxedge none l i j = true) :
    ∃ s y x, ocSubpix label d sizes (l, i, j) = (s, some y, some x) ∧
      |s - l| ≤ 1 / 2 ∧ |y - i| ≤ sizes l ∧ |x - j| ≤ sizes l := by
  obtain ⟨hl', ⟨b1, -, b3, -⟩, ⟨-, hneg, -⟩, hmin⟩ := (C194_minima n H W d sizes maxedge hm none l i j hl hs).1 h
  have hneg := hneg rfl
  obtain ⟨y, hy, hy0, hy1⟩ := mass_between label hlab d (sizes l) (l, i, j) ⟨hl'.1, b1, b3⟩ hneg (fun x => x.2.1)
    (fun x hx => (mem_window.1 hx).2.1)
  obtain ⟨x, hx, hx0, hx1⟩ := mass_between label hlab d (sizes l) (l, i, j) ⟨hl'.1, b1, b3⟩ hneg (fun x => x.2.2)
    (fun x hx => (mem_window.1 hx).2.2)
  unfold ocSubpix
  dsimp only
  rw [hy, hx]
  refine ⟨_, _, _, rfl, ?_, ?_, ?_⟩
  · have n0 : d l i j ≤ d (l + 0 - 1) i j := hmin _ _ _ (by omega) (by omega) (by omega) (by omega) (by omega) (by omega)
    have n2 : d l i j ≤ d (l + 2 - 1) i j := hmin _ _ _ (by omega) (by omega) (by omega) (by omega) (by omega) (by omega)
    have n1 : d (l + 1 - 1) i j = d l i j := rfl
    simp only [n1]
    generalize d (l + 0 - 1) i j = a at *
    generalize d (l + 2 - 1) i j = c at *
    generalize d l i j = b at *
    split
    · rename_i hden
      have hpos : 0 < c - 2 * b + a := by
        rcases lt_or_eq_of_le (show 0 ≤ c - 2 * b + a by linarith) with h | h
        · exact h
        · rw [← h] at hden
          norm_num at hden
      rw [show (l : F) - (c - a) / 2 / (c - 2 * b + a) - l = -((c - a) / 2 / (c - 2 * b + a)) by ring, abs_neg,
        abs_le]
      constructor
      · rw [le_div_iff₀ hpos]; linarith
      · rw [div_le_iff₀ hpos]; linarith
    · simp
  · rw [show y - (sizes l : F) + (i : F) - i = y - sizes l by ring, abs_le]
    constructor <;> linarith
  · rw [show x - (sizes l : F) + (j : F) - j = x - sizes l by ring, abs_le]
    constructor <;> linarith

example : ∃ label : Labeller3, ∀ f x, label f x = 0 ↔ f x = false :=
  ⟨fun f x => if f x then 1 else 0, fun f x => by cases h : f x <;> simp [h]⟩

end Subpix

section Radii

open Real

theorem sigma_mono (k : ℝ) (hk : 0 ≤ k) (n : Nat) (l : Nat) : sigmaOf k n l ^ 2 ≤ sigmaOf k n (l + 1) ^ 2 := by
  unfold sigmaOf
  have h0 : (0 : ℝ) < (2 : ℝ) ^ ((l : ℝ) / n) := Real.rpow_pos_of_pos (by norm_num) _
  have h1 : (2 : ℝ) ^ ((l : ℝ) / n) ≤ (2 : ℝ) ^ (((l + 1 : Nat) : ℝ) / n) :=
    Real.rpow_le_rpow_of_exponent_le (by norm_num) (by
      apply div_le_div_of_nonneg_right _ (Nat.cast_nonneg n)
      push_cast
      linarith)
  have : k * (2 : ℝ) ^ ((l : ℝ) / n) ≤ k * (2 : ℝ) ^ (((l + 1 : Nat) : ℝ) / n) := mul_le_mul_of_nonneg_left h1 hk
  have h2 : 0 ≤ k * (2 : ℝ) ^ ((l : ℝ) / n) := by positivity
  nlinarith

theorem layerVar_eq (var k : ℝ) (hk : 0 ≤ k) (n l : Nat) :
    layerVar var k n l = var + k ^ 2 * (((2 : ℝ) ^ ((l : ℝ) / n)) ^ 2 - 1) := by
  induction l with
  | zero => simp [layerVar]
  | succ l ih =>
    rw [layerVar, ih]
    unfold sigmaIter
    rw [Real.sq_sqrt (sub_nonneg.2 (sigma_mono k hk n l))]
    unfold sigmaOf
    ring

/-- **C194** Given an image already blurred by `k`, the successive filters blur the layer `l` by `k 2^(l/n)`: the layer
`n`, from which the next octave is made, by twice `k`. -/
theorem C194_layers (k : ℝ) (hk : 0 ≤ k) (n : Nat) (hn : 0 < n) :
    (∀ l, layerVar (k ^ 2) k n l = (k * (2 : ℝ) ^ ((l : ℝ) / n)) ^ 2) ∧ layerVar (k ^ 2) k n n = (2 * k) ^ 2 := by
  have h : ∀ l, layerVar (k ^ 2) k n l = (k * (2 : ℝ) ^ ((l : ℝ) / n)) ^ 2 := by
    intro l
    rw [layerVar_eq _ k hk]
    ring
  refine ⟨h, ?_⟩
  rw [h, div_self (by positivity), Real.rpow_one]
  ring

/-- **C194** A blob found in layer `l` is returned with a radius between those of the scales `l - 1/2` and `l + 1/2`, and
its coordinates are exchanged: `x` first. -/
theorem C194_radius (label : Labeller3) (hlab : ∀ f x, label f x = 0 ↔ f x = false)
    (n H W : Nat) (d : Nat → Nat → Nat → ℝ) (sizes : Nat → Nat) (maxedge : ℝ) (hm : maxedge ≤ 0)
    (l i j : Nat) (hl : l < n + 2) (hn : 0 < n) (k : ℝ) (hk : 0 < k) (hs : sizes l ≠ 0)
    (h : ocBinary (n + 2) H W d sizes maxedge none l i j = true) :
    ∃ s y x, ocSubpix label d sizes (l, i, j) = (s, some y, some x) ∧
      scale2radius (l - 1 / 2) k n 2 ≤ (ocRow k n (s, y, x)).2.2 ∧
      (ocRow k n (s, y, x)).2.2 ≤ scale2radius (l + 1 / 2) k n 2 ∧
      |(ocRow k n (s, y, x)).1 - j| ≤ sizes l ∧ |(ocRow k n (s, y, x)).2.1 - i| ≤ sizes l := by
  obtain ⟨s, y, x, h1, h2, h3, h4⟩ := C194_subpix label hlab (n + 2) H W d sizes maxedge hm l i j hl hs h
  have hmono := (C188_scales k n 2 hk (by exact_mod_cast hn) (by norm_num)).2.2.2.2.2
  rw [abs_le] at h2
  refine ⟨s, y, x, h1, ?_, ?_, h4, h3⟩
  · exact hmono.monotone (by linarith)
  · exact hmono.monotone (by linarith)

end Radii

end Track
end Py
end Colloids
