import Verif.Tracker.CentroidModel
import Verif.Tracker.PixelProps
import Verif.Index.Lemmas
import Mathlib.Tactic.FieldSimp
import Mathlib.Tactic.LinearCombination
import Mathlib.Tactic.Positivity
import Mathlib.Data.Rat.Floor

/-! # C98, C100 : the positions of the centers -/

namespace Colloids
namespace Tracker

open Octave (Ext)

variable {G : Type} [Field G] [LinearOrder G]

/-- Pixels at most two away from `i`, or all the pixels of a dimension of less than five. -/
def Near (n i a : Nat) : Prop := a < n ∧ (5 ≤ n → i ≤ a + 2 ∧ a ≤ i + 2)

/-- The pixel is in the image and, in dimensions of five pixels and more, so are two pixels on each side. -/
def Fits (n i : Nat) : Prop := i < n ∧ (5 ≤ n → 2 ≤ i ∧ i + 3 ≤ n)

/-- The three dimensions. -/
def Fits3 (D : Dims) (i j k : Nat) : Prop := Fits D.n0 i ∧ Fits D.n1 j ∧ Fits D.n2 k

/-- The pixel is a maximum of its neighbourhood, where no pixel is negative. -/
def Top (D : Dims) (v : Nat → Nat → Nat → G) (i j k : Nat) : Prop :=
  ∀ a b c, Near D.n0 i a → Near D.n1 j b → Near D.n2 k c → 0 ≤ v a b c ∧ v a b c ≤ v i j k

/-- The shift along one dimension, from the brightness `f` of the pixels of the line. -/
def lineShift (n i : Nat) (f : Nat → G) : Ext G :=
  if 5 ≤ n then newton (f (i - 2)) (f (i - 1)) (f i) (f (i + 1)) (f (i + 2)) else .fin 0

/-- The position of the center that belongs to a pixel. -/
def centerAt (D : Dims) (v : Nat → Nat → Nat → G) (i j k : Nat) : Pos3 G :=
  ⟨addExt (i : G) (lineShift D.n0 i (fun a => v a j k)), addExt (j : G) (lineShift D.n1 j (fun b => v i b k)),
    addExt (k : G) (lineShift D.n2 k (fun c => v i j c))⟩

theorem around_ok {n i : Nat} (h : Fits n i) : ∃ l, around n i = .ok l ∧ ∀ a, a ∈ l ↔ Near n i a := by
  unfold around Near
  by_cases h5 : n < 5
  · rw [if_pos h5]
    exact ⟨_, rfl, fun a => by rw [List.mem_range]; omega⟩
  · have := h.2 (by omega)
    rw [if_neg h5, if_pos this]
    refine ⟨_, rfl, fun a => ?_⟩
    rw [List.mem_range'_1]
    omega

theorem idx_div {D : Dims} {i j k : Nat} (hj : j < D.n1) (hk : k < D.n2) :
    D.idx i j k / (D.n1 * D.n2) = i ∧ D.idx i j k % (D.n1 * D.n2) / D.n2 = j ∧
      D.idx i j k % (D.n1 * D.n2) % D.n2 = k := by
  have hl : j * D.n2 + k < D.n1 * D.n2 := by
    have : (j + 1) * D.n2 ≤ D.n1 * D.n2 := Nat.mul_le_mul_right _ hj
    rw [Nat.succ_mul] at this
    omega
  have e : D.idx i j k = D.n1 * D.n2 * i + (j * D.n2 + k) := by
    unfold Dims.idx
    rw [Nat.mul_comm i]
    omega
  have hm : D.idx i j k % (D.n1 * D.n2) = D.n2 * j + k := by
    rw [e, Nat.mul_add_mod, Nat.mod_eq_of_lt hl, Nat.mul_comm]
  refine ⟨?_, ?_, ?_⟩
  · rw [e, Nat.mul_add_div (by omega), Nat.div_eq_of_lt hl, Nat.add_zero]
  · rw [hm, Nat.mul_add_div (by omega), Nat.div_eq_of_lt hk, Nat.add_zero]
  · rw [hm, Nat.mul_add_mod, Nat.mod_eq_of_lt hk]

theorem getR_some {α : Type} {l : List α} {p : Nat} {x : α} (h : l[p]? = some x) : getR l p = .ok x := by
  obtain ⟨h1, h2⟩ := List.getElem?_eq_some_iff.1 h
  rw [getR_of_lt h1, h2]

theorem readBack_some {α : Type} {l : List α} {p s q : Nat} {x : α} (hq : p = q + s) (h : l[q]? = some x) :
    readBack l p s = .ok x := by
  unfold readBack
  rw [if_pos (by omega), show p - s = q by omega, getR_some h]

/-- Pixels at most two away in a line. -/
theorem shift_line {img : List G} {n i s base : Nat} {f : Nat → G} (h : Fits n i)
    (hf : ∀ a, Near n i a → img[base + a * s]? = some (f a)) :
    shift img n s (base + i * s) = .ok (lineShift n i f) := by
  unfold shift lineShift
  by_cases h5 : 5 ≤ n
  · have hh := h.2 h5
    have e2 : i * s = (i - 2) * s + 2 * s := by
      rw [← Nat.add_mul]
      congr 1
      omega
    have e1 : i * s = (i - 1) * s + s := by
      rw [← Nat.succ_mul]
      congr 1
      omega
    have e3 : (i + 1) * s = i * s + s := Nat.succ_mul _ _
    have e4 : (i + 2) * s = i * s + 2 * s := Nat.add_mul _ _ _
    have near : ∀ a, i ≤ a + 2 → a ≤ i + 2 → Near n i a := fun a h1 h2 => ⟨by omega, fun _ => ⟨h1, h2⟩⟩
    rw [if_pos h5, if_pos h5, readBack_some (q := base + (i - 2) * s) (by omega) (hf _ (near _ (by omega) (by omega))),
      ok_bind, readBack_some (q := base + (i - 1) * s) (by omega) (hf _ (near _ (by omega) (by omega))), ok_bind,
      getR_some (hf _ (near i (by omega) (by omega))), ok_bind,
      show base + i * s + s = base + (i + 1) * s by omega, getR_some (hf _ (near _ (by omega) (by omega))), ok_bind,
      show base + i * s + 2 * s = base + (i + 2) * s by omega, getR_some (hf _ (near _ (by omega) (by omega))), ok_bind]
    rfl
  · rw [if_neg h5, if_neg h5]

theorem fits_near {n i : Nat} (h : Fits n i) : Near n i i := ⟨h.1, fun _ => by omega⟩

open Classical in
/-- On a pixel with two pixels on each side, the function gives the position found by Newton's method if the
pixel is the maximum of the neighbourhood and no pixel of it is negative, and the mark if not. -/
theorem C98_centroid (D : Dims) (img : List G) (v : Nat → Nat → Nat → G) (hv : Shows D img v) (i j k : Nat)
    (hf : Fits3 D i j k) :
    centroid D img (D.idx i j k) = .ok (if Top D v i j k then centerAt D v i j k else noPos) := by
  obtain ⟨f0, f1, f2⟩ := hf
  obtain ⟨d0, d1, d2⟩ := idx_div (i := i) f1.1 f2.1
  obtain ⟨l0, a0, m0⟩ := around_ok f0
  obtain ⟨l1, a1, m1⟩ := around_ok f1
  obtain ⟨l2, a2, m2⟩ := around_ok f2
  have hps : neighbourhood D i j k =
      .ok (l0.flatMap fun a => l1.flatMap fun b => l2.map fun c => D.idx a b c) := by
    unfold neighbourhood
    rw [a0, ok_bind, a1, ok_bind, a2, ok_bind]
    rfl
  have hmem : ∀ p, p ∈ (l0.flatMap fun a => l1.flatMap fun b => l2.map fun c => D.idx a b c) ↔
      ∃ a b c, Near D.n0 i a ∧ Near D.n1 j b ∧ Near D.n2 k c ∧ D.idx a b c = p := by
    intro p
    simp only [List.mem_flatMap, List.mem_map, m0, m1, m2]
    constructor
    · rintro ⟨a, ha, b, hb, c, hc, e⟩
      exact ⟨a, b, c, ha, hb, hc, e⟩
    · rintro ⟨a, b, c, ha, hb, hc, e⟩
      exact ⟨a, ha, b, hb, c, hc, e⟩
  have hget : ∀ p ∈ (l0.flatMap fun a => l1.flatMap fun b => l2.map fun c => D.idx a b c),
      getR img p = .ok (img.getD p 0) := by
    intro p hp
    obtain ⟨a, b, c, ha, hb, hc, e⟩ := (hmem p).1 hp
    have h1 := hv.2 a b c ha.1 hb.1 hc.1
    rw [e] at h1
    rw [getR_some h1, List.getD_eq_getElem?_getD, h1]
    rfl
  have hngb := TreeIndex.mapM_ok_of (getR img) (fun p => img.getD p 0) _ hget
  have hx : getR img (D.idx i j k) = .ok (v i j k) := getR_some (hv.2 i j k f0.1 f1.1 f2.1)
  have hany : ∀ (P : G → Bool), (((l0.flatMap fun a => l1.flatMap fun b => l2.map fun c => D.idx a b c).map
      (fun p => img.getD p 0)).any P = true ↔
      ∃ a b c, Near D.n0 i a ∧ Near D.n1 j b ∧ Near D.n2 k c ∧ P (v a b c) = true) := by
    intro P
    rw [List.any_eq_true]
    constructor
    · rintro ⟨y, hy, hP⟩
      obtain ⟨p, hp, rfl⟩ := List.mem_map.1 hy
      obtain ⟨a, b, c, ha, hb, hc, e⟩ := (hmem p).1 hp
      refine ⟨a, b, c, ha, hb, hc, ?_⟩
      rw [← e, List.getD_eq_getElem?_getD, hv.2 a b c ha.1 hb.1 hc.1] at hP
      exact hP
    · rintro ⟨a, b, c, ha, hb, hc, hP⟩
      refine ⟨v a b c, List.mem_map.2 ⟨D.idx a b c, (hmem _).2 ⟨a, b, c, ha, hb, hc, rfl⟩, ?_⟩, hP⟩
      rw [List.getD_eq_getElem?_getD, hv.2 a b c ha.1 hb.1 hc.1]
      rfl
  have s0 : shift img D.n0 (D.n1 * D.n2) (D.idx i j k) = .ok (lineShift D.n0 i (fun a => v a j k)) := by
    have := shift_line (img := img) (s := D.n1 * D.n2) (base := j * D.n2 + k) (f := fun a => v a j k) f0 (by
      intro a ha
      rw [show j * D.n2 + k + a * (D.n1 * D.n2) = D.idx a j k by unfold Dims.idx; omega]
      exact hv.2 a j k ha.1 f1.1 f2.1)
    rwa [show j * D.n2 + k + i * (D.n1 * D.n2) = D.idx i j k by unfold Dims.idx; omega] at this
  have s1 : shift img D.n1 D.n2 (D.idx i j k) = .ok (lineShift D.n1 j (fun b => v i b k)) := by
    have := shift_line (img := img) (s := D.n2) (base := i * (D.n1 * D.n2) + k) (f := fun b => v i b k) f1 (by
      intro b hb
      rw [show i * (D.n1 * D.n2) + k + b * D.n2 = D.idx i b k by unfold Dims.idx; omega]
      exact hv.2 i b k f0.1 hb.1 f2.1)
    rwa [show i * (D.n1 * D.n2) + k + j * D.n2 = D.idx i j k by unfold Dims.idx; omega] at this
  have s2 : shift img D.n2 1 (D.idx i j k) = .ok (lineShift D.n2 k (fun c => v i j c)) := by
    have := shift_line (img := img) (s := 1) (base := i * (D.n1 * D.n2) + j * D.n2) (f := fun c => v i j c) f2 (by
      intro c hc
      rw [show i * (D.n1 * D.n2) + j * D.n2 + c * 1 = D.idx i j c by unfold Dims.idx; omega]
      exact hv.2 i j c f0.1 f1.1 hc.1)
    rwa [show i * (D.n1 * D.n2) + j * D.n2 + k * 1 = D.idx i j k by unfold Dims.idx; omega] at this
  unfold centroid
  simp only
  rw [d0, d1, d2, hps, ok_bind, hngb, ok_bind, hx, ok_bind, s0, s1, s2]
  by_cases hT : Top D v i j k
  · rw [if_pos hT, if_neg, if_neg]
    · rfl
    · rw [hany]
      rintro ⟨a, b, c, ha, hb, hc, hP⟩
      exact absurd (decide_eq_true_iff.1 hP) (not_lt.2 (hT a b c ha hb hc).2)
    · rw [hany]
      rintro ⟨a, b, c, ha, hb, hc, hP⟩
      exact absurd (decide_eq_true_iff.1 hP) (not_lt.2 (hT a b c ha hb hc).1)
  · rw [if_neg hT]
    split_ifs with c1 c2
    · rfl
    · rfl
    · exfalso
      refine hT fun a b c ha hb hc => ⟨?_, ?_⟩
      · by_contra hlt
        exact c1 ((hany _).2 ⟨a, b, c, ha, hb, hc, decide_eq_true_iff.2 (not_le.1 hlt)⟩)
      · by_contra hlt
        exact c2 ((hany _).2 ⟨a, b, c, ha, hb, hc, decide_eq_true_iff.2 (not_le.1 hlt)⟩)

/-- In a dimension of five pixels or more, a pixel that has not two pixels on each side is read out of the
image. There is nothing that keeps such pixels out in dimensions of 5 to 12 pixels: all the pixels above the
threshold are marked there. -/
theorem C98_border_counterexample (D : Dims) (img : List G) (i j k : Nat) (hj : j < D.n1) (hk : k < D.n2)
    (h5 : 5 ≤ D.n0) (hb : i < 2 ∨ D.n0 < i + 3) :
    centroid D img (D.idx i j k) = .error .ub ∧
    (∀ (n : Nat) (img : List ℚ), 5 ≤ n → n ≤ 12 → img.length = n → (∀ x ∈ img, 0 ≤ x) →
      findPixelCenters ⟨n, 1, 1⟩ 0 img (List.replicate n false) = .ok (List.replicate n true)) := by
  refine ⟨?_, ?_⟩
  · obtain ⟨d0, d1, d2⟩ := idx_div (i := i) hj hk
    unfold centroid
    simp only
    rw [d0, d1, d2]
    have : neighbourhood D i j k = .error .ub := by
      unfold neighbourhood around
      rw [if_neg (by omega : ¬ D.n0 < 5), if_neg (by omega)]
      rfl
    rw [this]
    rfl
  · intro n img h5 h12 hl hx
    have hst : steps ⟨n, 1, 1⟩ = [] := by
      unfold steps margin
      simp
      omega
    have hoff : offset ⟨n, 1, 1⟩ = 0 := by unfold offset; rw [hst]; rfl
    have hmar : margins ⟨n, 1, 1⟩ = [] := by
      unfold margins margin
      simp
    have hsz : Dims.size ⟨n, 1, 1⟩ = n := by unfold Dims.size; simp
    have key : ∀ c p, p + c = n → scan ⟨n, 1, 1⟩ (0 : ℚ) img c p (List.replicate p true ++ List.replicate c false) =
        .ok (List.replicate n true) := by
      intro c
      induction c with
      | zero => intro p hp; rw [scan, show p = n by omega]; simp
      | succ c ih =>
        intro p hp
        have hplt : p < img.length := by omega
        have hc : isCenter ⟨n, 1, 1⟩ (0 : ℚ) img (List.replicate p true ++ List.replicate (c + 1) false) p = .ok true := by
          unfold isCenter
          rw [getR_of_lt hplt, ok_bind, if_pos (hx _ (List.getElem_mem hplt)), hst]
          rfl
        have hset : setR (List.replicate p true ++ List.replicate (c + 1) false) p true =
            .ok (List.replicate (p + 1) true ++ List.replicate c false) := by
          refine setR_ok.2 ⟨by simp, ?_⟩
          rw [List.set_append_right _ _ (by simp), List.length_replicate, Nat.sub_self, List.replicate_succ (n := c),
            List.set_cons_zero, List.replicate_succ', List.append_assoc, List.singleton_append]
        rw [scan, hc, ok_bind, hset, ok_bind]
        exact ih (p + 1) (by omega)
    unfold findPixelCenters
    simp only
    rw [hoff, hsz, if_neg (by omega), hmar, zero_mul]
    have := key n 0 (by omega)
    rw [List.replicate_zero, List.nil_append] at this
    show (scan ⟨n, 1, 1⟩ (0 : ℚ) img (n - 2 * 0) 0 (List.replicate n false) >>= _) = _
    rw [Nat.mul_zero, Nat.sub_zero, this]
    rfl

section ordered

variable [IsStrictOrderedRing G]

/-- For a polynomial of degree four the derivatives are exact: the step is Newton's. -/
theorem C98_newton (c0 c1 c2 c3 c4 : G) (h : c2 ≠ 0) :
    let P : G → G := fun x => c0 + c1 * x + c2 * x ^ 2 + c3 * x ^ 3 + c4 * x ^ 4
    newton (P (-2)) (P (-1)) (P 0) (P 1) (P 2) = .fin (-c1 / (2 * c2)) := by
  intro P
  unfold newton Ext.div
  have e1 : -(P (-2) * 1 + P (-1) * (-8) + P 0 * 0 + P 1 * 8 + P 2 * (-1)) = -(12 * c1) := by
    simp only [P]
    ring
  have e2 : P (-2) * (-1) + P (-1) * 16 + P 0 * (-30) + P 1 * 16 + P 2 * (-1) = 24 * c2 := by
    simp only [P]
    ring
  rw [e1, e2, if_neg (mul_ne_zero (by norm_num) h)]
  congr 1
  field_simp
  ring

/-- If the brightness is a parabola along a line, the position along that line is its summit, at most half a
pixel away. -/
theorem C98_parabola (n i : Nat) (hn : 5 ≤ n) (f : Nat → G) (top b s : G) (hb : b ≠ 0)
    (hf : ∀ a, i ≤ a + 2 → a ≤ i + 2 → f a = top - b * ((a : G) - s) ^ 2) (hi : 2 ≤ i) :
    addExt (i : G) (lineShift n i f) = .fin s ∧
    (f (i - 1) ≤ f i → f (i + 1) ≤ f i → 0 < b → |s - i| ≤ 1 / 2) := by
  have c1 : ((i - 1 : Nat) : G) = (i : G) - 1 := by rw [Nat.cast_sub (by omega)]; norm_num
  have c2 : ((i - 2 : Nat) : G) = (i : G) - 2 := by rw [Nat.cast_sub (by omega)]; norm_num
  have c3 : ((i + 1 : Nat) : G) = (i : G) + 1 := by push_cast; ring
  have c4 : ((i + 2 : Nat) : G) = (i : G) + 2 := by push_cast; ring
  constructor
  · unfold lineShift
    rw [if_pos hn, hf _ (by omega) (by omega), hf (i - 1) (by omega) (by omega), hf i (by omega) (by omega),
      hf (i + 1) (by omega) (by omega), hf (i + 2) (by omega) (by omega), c1, c2, c3, c4]
    have h := C98_newton (top - b * ((i : G) - s) ^ 2) (-2 * b * ((i : G) - s)) (-b) 0 0 (neg_ne_zero.2 hb)
    simp only at h
    have e : ∀ x : G, top - b * ((i : G) - s) ^ 2 + -2 * b * ((i : G) - s) * x + -b * x ^ 2 + 0 * x ^ 3 + 0 * x ^ 4 =
        top - b * ((i : G) + x - s) ^ 2 := by
      intro x
      ring
    rw [e, e, e, e, e] at h
    rw [show (i : G) - 2 = (i : G) + -2 by ring, show (i : G) - 1 = (i : G) + -1 by ring]
    rw [add_zero] at h
    rw [h]
    unfold addExt
    congr 1
    field_simp
    ring
  · intro h1 h2 hpos
    rw [hf _ (by omega) (by omega), hf i (by omega) (by omega), c1] at h1
    rw [hf _ (by omega) (by omega), hf i (by omega) (by omega), c3] at h2
    have g1 : ((i : G) - s) ^ 2 ≤ ((i : G) - 1 - s) ^ 2 := by
      by_contra hc
      have := mul_lt_mul_of_pos_left (not_le.1 hc) hpos
      linarith
    have g2 : ((i : G) - s) ^ 2 ≤ ((i : G) + 1 - s) ^ 2 := by
      by_contra hc
      have := mul_lt_mul_of_pos_left (not_le.1 hc) hpos
      linarith
    rw [abs_le]
    constructor <;> nlinarith

/-- In general the shift has no bound: however far, there is a line of five non-negative pixels whose middle
one is the brightest, for which the center is further. -/
theorem C98_far_counterexample (B : G) : ∃ a b c d e x : G, 0 ≤ a ∧ 0 ≤ b ∧ 0 ≤ c ∧ 0 ≤ d ∧ 0 ≤ e ∧ a ≤ c ∧ b ≤ c ∧
    d ≤ c ∧ e ≤ c ∧ newton a b c d e = .fin x ∧ x < B := by
  -- a = e, c = d, b = c - 1 and 2(c - a) = 16 + t
  let M : G := 2 * |B| + 2
  have hM : 0 < M := by positivity
  refine ⟨12 - 4 / M, 19 + 4 / M, 20 + 4 / M, 20 + 4 / M, 12 - 4 / M, ?_⟩
  have h1 : 4 / M ≤ 4 := by
    rw [div_le_iff₀ hM]
    have := abs_nonneg B
    show 4 ≤ 4 * (2 * |B| + 2)
    linarith
  have h2 : 0 < 4 / M := by positivity
  refine ⟨-M / 2, by linarith, by linarith, by linarith, by linarith, by linarith, by linarith, by linarith,
    le_refl _, by linarith, ?_, ?_⟩
  · unfold newton Ext.div
    have e2 : (12 - 4 / M) * (-1) + (19 + 4 / M) * 16 + (20 + 4 / M) * (-30) + (20 + 4 / M) * 16 +
        (12 - 4 / M) * (-1) = 16 / M := by
      field_simp
      ring
    have e1 : -((12 - 4 / M) * 1 + (19 + 4 / M) * (-8) + (20 + 4 / M) * 0 + (20 + 4 / M) * 8 +
        (12 - 4 / M) * (-1)) = -8 := by
      ring
    rw [e1, e2, if_neg (by positivity)]
    congr 1
    field_simp
    ring
  · have := neg_abs_le B
    show -(2 * |B| + 2) / 2 < B
    linarith

end ordered

/-- Five equal pixels: the shift is not a number, and the center is kept because the test for marked centers
is `v[0] < 0`. -/
theorem C98_nan_counterexample (x y : G) (i : Nat) :
    newton x x x x x = .nan ∧ negExt (addExt (i : G) (newton y y y y y)) = false := by
  have key : ∀ z : G, newton z z z z z = .nan := by
    intro z
    unfold newton Ext.div
    rw [if_pos (by ring), if_pos (by ring)]
  refine ⟨key x, ?_⟩
  rw [key y]
  rfl

end Tracker
end Colloids
