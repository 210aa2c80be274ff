import Mathlib.Tactic.Linarith
import Mathlib.Tactic.FieldSimp
import Mathlib.Tactic.Ring
import Mathlib.Tactic.Positivity
import Mathlib.Tactic.NormNum
import Mathlib.Tactic.IntervalCases
import Verif.CommonLemmas
import Verif.Py.TrackFindModel

/-!
# `CrockerGrierFinder` of `python/colloids/track.py`
-/

namespace Colloids
namespace Py
namespace Track

variable {F : Type} [Field F] [LinearOrder F]

omit [Field F] in
theorem foldl_max_eq (l : List F) (a : F) : a = l.foldl max a ↔ ∀ x ∈ l, x ≤ a := by
  have up : ∀ (l : List F) (a : F), a ≤ l.foldl max a ∧ ∀ x ∈ l, x ≤ l.foldl max a := by
    intro l
    induction l with
    | nil => simp
    | cons b l ih =>
      intro a
      obtain ⟨h1, h2⟩ := ih (max a b)
      rw [List.foldl_cons]
      refine ⟨(le_max_left a b).trans h1, fun x hx => ?_⟩
      rcases List.mem_cons.1 hx with rfl | hx
      · exact (le_max_right a x).trans h1
      · exact h2 x hx
  constructor
  · intro h x hx
    rw [h]
    exact (up l a).2 x hx
  · intro h
    induction l with
    | nil => rfl
    | cons b l ih =>
      rw [List.foldl_cons, max_eq_left (h b (by simp))]
      exact ih fun x hx => h x (List.mem_cons_of_mem _ hx)

/-- inside of the image the neighbourhood is not reflected -/
theorem mem_three {n i u : Nat} (h1 : 1 ≤ i) (h2 : i + 1 < n) : u ∈ three n i ↔ i ≤ u + 1 ∧ u ≤ i + 1 := by
  have e1 : reflect n ((i : Int) - 1) = i - 1 := by unfold reflect; split <;> (try split) <;> omega
  have e2 : reflect n ((i : Int) + 1) = i + 1 := by unfold reflect; split <;> (try split) <;> omega
  unfold three
  rw [e1, e2]
  simp only [List.mem_cons, List.not_mem_nil, or_false]
  omega

theorem dilated_iff {H W : Nat} (b : Nat → Nat → F) {i j : Nat} (hi : 1 ≤ i) (hi' : i + 1 < H) (hj : 1 ≤ j)
    (hj' : j + 1 < W) : b i j = dilated H W b i j ↔
      ∀ u v, i ≤ u + 1 → u ≤ i + 1 → j ≤ v + 1 → v ≤ j + 1 → b u v ≤ b i j := by
  unfold dilated
  rw [foldl_max_eq]
  constructor
  · intro h u v h1 h2 h3 h4
    exact h _ (List.mem_flatMap.2 ⟨u, (mem_three hi hi').2 ⟨h1, h2⟩,
      List.mem_map.2 ⟨v, (mem_three hj hj').2 ⟨h3, h4⟩, rfl⟩⟩)
  · intro h x hx
    obtain ⟨u, hu, hx⟩ := List.mem_flatMap.1 hx
    obtain ⟨v, hv, rfl⟩ := List.mem_map.1 hx
    have hu' := (mem_three hi hi').1 hu
    have hv' := (mem_three hj hj').1 hv
    exact h u v hu'.1 hu'.2 hv'.1 hv'.2

/-- **C193** Without a limit on elongated blobs, `initialize_binary` keeps exactly the pixels at two pixels or more
from the edges of the image, that are not lower than any of their eight neighbours and, if there is a
threshold, higher than it. -/
theorem C193_peaks (H W : Nat) (b : Nat → Nat → F) (maxedge : F) (hm : maxedge ≤ 0) (threshold : Option F)
    (i j : Nat) :
    cgBinary H W b maxedge threshold i j = true ↔
      (2 ≤ i ∧ i + 2 < H ∧ 2 ≤ j ∧ j + 2 < W) ∧
      (∀ u v, i ≤ u + 1 → u ≤ i + 1 → j ≤ v + 1 → v ≤ j + 1 → b u v ≤ b i j) ∧
      ∀ thr, threshold = some thr → thr < b i j := by
  unfold cgBinary peaks
  rw [if_neg (not_lt.2 hm)]
  by_cases hin : 2 ≤ i ∧ i + 2 < H ∧ 2 ≤ j ∧ j + 2 < W
  · have hd := dilated_iff b (i := i) (j := j) (H := H) (W := W) (by omega) (by omega) (by omega) (by omega)
    cases threshold with
    | none => simp [hin, ← hd]
    | some thr => simp [hin, ← hd]
  · simp [hin]

/-- a peak of an image of 7 pixels -/
example : cgBinary 7 7 (fun i j => if i = 3 ∧ j = 3 then (1 : ℚ) else 0) (-1) none 3 3 = true := by
  rw [C193_peaks 7 7 _ _ (by norm_num)]
  refine ⟨by omega, fun u v _ _ _ _ => ?_, by simp⟩
  simp only [and_self, if_true]
  split <;> norm_num

variable [IsStrictOrderedRing F]

/-- **C193** With a limit, pixels are only removed. -/
theorem C193_edges (H W : Nat) (b : Nat → Nat → F) (maxedge : F) (threshold : Option F) (i j : Nat)
    (h : cgBinary H W b maxedge threshold i j = true) : cgBinary H W b (-1) threshold i j = true := by
  unfold cgBinary at h ⊢
  rw [Bool.and_eq_true] at h
  rw [h.1, if_neg (by linarith [zero_lt_one (α := F)])]
  rfl

/-- an elliptic blob with axes along the diagonals, centered on pixel `(5, 5)` -/
def diagonal (c : F) (i j : Nat) : F :=
  -((i : F) - 5) ^ 2 - ((j : F) - 5) ^ 2 + c * (((i : F) - 5) * ((j : F) - 5))

/-- the same blob turned by 45 degrees -/
def straight (c : F) (i j : Nat) : F := -(1 - c / 2) * ((i : F) - 5) ^ 2 - (1 + c / 2) * ((j : F) - 5) ^ 2

theorem three_cases {u : Nat} (h1 : 5 ≤ u + 1) (h2 : u ≤ 5 + 1) :
    ((u : F) - 5 = -1) ∨ ((u : F) - 5 = 0) ∨ ((u : F) - 5 = 1) := by
  have h1' : 4 ≤ u := by omega
  interval_cases u
  · left; norm_num
  · right; left; norm_num
  · right; right; norm_num

/-- **C193, counterexample** The limit on elongated blobs depends on their orientation: of an ellipse whose axes
are along the diagonals all limits remove the center, even if they keep the same ellipse turned by 45
degrees.  (The cross derivative is not divided by 4.) -/
theorem C193_edge_counterexample (c maxedge : F) (h1 : 1 / 2 < c) (h2 : c < 2) (hm : 4 / (4 - c ^ 2) ≤ maxedge) :
    cgBinary 11 11 (diagonal c) maxedge none 5 5 = false ∧
    cgBinary 11 11 (diagonal c) (-1) none 5 5 = true ∧
    cgBinary 11 11 (straight c) maxedge none 5 5 = true ∧
    ∀ u v w : F, 2 * w ^ 2 = 1 → -(1 - c / 2) * u ^ 2 - (1 + c / 2) * v ^ 2
      = -(w * (u + v)) ^ 2 - (w * (u - v)) ^ 2 + c * ((w * (u + v)) * (w * (u - v))) := by
  have h4 : 0 < 4 - c ^ 2 := by nlinarith
  have hm0 : 0 < maxedge := lt_of_lt_of_le (by positivity) hm
  have hd : cgBinary 11 11 (diagonal c) (-1) none 5 5 = true := by
    rw [C193_peaks 11 11 _ _ (by linarith [zero_lt_one (α := F)])]
    refine ⟨by omega, fun u v a1 a2 a3 a4 => ?_, by simp⟩
    unfold diagonal
    rcases three_cases (F := F) a1 a2 with e | e | e <;> rcases three_cases (F := F) a3 a4 with e' | e' | e' <;>
      rw [e, e'] <;> norm_num <;> linarith
  have hs : cgBinary 11 11 (straight c) (-1) none 5 5 = true := by
    rw [C193_peaks 11 11 _ _ (by linarith [zero_lt_one (α := F)])]
    refine ⟨by omega, fun u v a1 a2 a3 a4 => ?_, by simp⟩
    unfold straight
    rcases three_cases (F := F) a1 a2 with e | e | e <;> rcases three_cases (F := F) a3 a4 with e' | e' | e' <;>
      rw [e, e'] <;> norm_num <;> linarith
  refine ⟨?_, hd, ?_, fun u v w hw => ?_⟩
  · have hh : hess (diagonal c) 5 5 = (-2, -2, 4 * c) := by
      unfold hess diagonal
      refine Prod.ext ?_ (Prod.ext ?_ ?_) <;> norm_num
      ring
    unfold cgBinary
    rw [if_pos hm0, hh]
    have : isEdge maxedge ((-2 : F), (-2 : F), 4 * c) = true := by
      unfold isEdge
      rw [Bool.or_eq_true]
      left
      apply decide_eq_true
      dsimp only
      nlinarith
    rw [this]
    simp
  · have hh : hess (straight c) 5 5 = (-(2 - c), -(2 + c), 0) := by
      unfold hess straight
      refine Prod.ext ?_ (Prod.ext ?_ ?_) <;> norm_num <;> ring
    unfold cgBinary at hs ⊢
    rw [Bool.and_eq_true] at hs
    rw [hs.1, if_pos hm0, hh]
    have e : -(2 - c) * -(2 + c) = 4 - c ^ 2 := by ring
    have : isEdge maxedge (-(2 - c), -(2 + c), (0 : F)) = false := by
      unfold isEdge
      rw [Bool.or_eq_false_iff]
      dsimp only
      constructor
      · apply decide_eq_false
        rw [e]
        simp only [ne_eq, OfNat.ofNat_ne_zero, not_false_eq_true, zero_pow, sub_zero]
        exact not_lt.2 h4.le
      · rw [if_neg (by rw [e]; exact h4.ne')]
        apply decide_eq_false
        have : (-(2 - c) + -(2 + c)) ^ 2 / (4 * -(2 - c) * -(2 + c)) = 4 / (4 - c ^ 2) := by
          rw [show 4 * -(2 - c) * -(2 + c) = 4 * (4 - c ^ 2) by ring,
            show (-(2 - c) + -(2 + c)) ^ 2 = 4 * 4 by ring, mul_div_mul_left _ _ (by norm_num : (4 : F) ≠ 0)]
        rw [this]
        exact not_lt.2 hm
    rw [this]
    rfl
  · have : w ^ 2 = 1 / 2 := by linarith
    have e : -(w * (u + v)) ^ 2 - (w * (u - v)) ^ 2 + c * ((w * (u + v)) * (w * (u - v)))
        = w ^ 2 * (-2 * u ^ 2 - 2 * v ^ 2 + c * (u ^ 2 - v ^ 2)) := by ring
    rw [e, this]
    ring

example : (1 / 2 : ℚ) < 3 / 5 ∧ (3 / 5 : ℚ) < 2 ∧ 4 / (4 - (3 / 5 : ℚ) ^ 2) ≤ 1.1 := by norm_num

/-- **C193** On an image of one dimension the refined position is the top of a parabola, exactly. -/
theorem C193_line (a s u : F) (hs : s ≠ 0) (p : Nat) (hp : 2 ≤ p) :
    (cgSubpix1 (fun x => a + s * ((x : F) - u) ^ 2) p).2 = some u := by
  obtain ⟨q, rfl⟩ : ∃ q, p = q + 2 := ⟨p - 2, by omega⟩
  unfold cgSubpix1
  dsimp only
  have e : ∀ t, q + 2 + t - 2 = q + t := fun t => by omega
  have hsec : dotSec (fun t => a + s * (((q + 2 + t - 2 : Nat) : F) - u) ^ 2) = 24 * s := by
    unfold dotSec
    simp only [e]
    push_cast
    ring
  have hpr : dotPrime (fun t => a + s * (((q + 2 + t - 2 : Nat) : F) - u) ^ 2) = 24 * s * ((q + 2 : F) - u) := by
    unfold dotPrime
    simp only [e]
    push_cast
    ring
  rw [hsec, hpr]
  have h24 : 24 * s ≠ 0 := mul_ne_zero (by norm_num) hs
  unfold quot
  rw [if_neg h24, mul_div_cancel_left₀ _ h24]
  simp

/-- **C193, counterexample** On an image of two dimensions the corrections are exchanged: for every parabolic blob
of center `(u, v)` around any pixel `p`, the position is refined to `p + (v - p.2, u - p.1)`, that is the center
only if it is on the diagonal of the pixel. -/
theorem C193_exchange_counterexample (a s t u v : F) (hs : s ≠ 0) (ht : t ≠ 0) (p : Nat × Nat) (h1 : 2 ≤ p.1)
    (h2 : 2 ≤ p.2) :
    (cgSubpix (fun x y => a + s * ((x : F) - u) ^ 2 + t * ((y : F) - v) ^ 2) p).2
      = (some (p.1 + (v - p.2)), some (p.2 + (u - p.1))) ∧
    ((cgSubpix (fun x y => a + s * ((x : F) - u) ^ 2 + t * ((y : F) - v) ^ 2) p).2 = (some u, some v)
      ↔ u - p.1 = v - p.2) := by
  obtain ⟨p, q⟩ := p
  obtain ⟨p, rfl⟩ : ∃ q, p = q + 2 := ⟨p - 2, by dsimp only at h1; omega⟩
  obtain ⟨q, rfl⟩ : ∃ p, q = p + 2 := ⟨q - 2, by dsimp only at h2; omega⟩
  have main : (cgSubpix (fun x y => a + s * ((x : F) - u) ^ 2 + t * ((y : F) - v) ^ 2) (p + 2, q + 2)).2
      = (some (((p + 2 : Nat) : F) + (v - ((q + 2 : Nat) : F))), some (((q + 2 : Nat) : F) + (u - ((p + 2 : Nat) : F)))) := by
    unfold cgSubpix
    dsimp only
    have e : ∀ t, p + 2 + t - 2 = p + t := fun t => by omega
    have e' : ∀ t, q + 2 + t - 2 = q + t := fun t => by omega
    simp only [e, e']
    have hsec : dotSec (fun x => a + s * (((p + 1 : Nat) : F) - u) ^ 2 + t * (((q + x : Nat) : F) - v) ^ 2)
        = 24 * t := by
      unfold dotSec; push_cast; ring
    have hpr : dotPrime (fun x => a + s * (((p + 1 : Nat) : F) - u) ^ 2 + t * (((q + x : Nat) : F) - v) ^ 2)
        = 24 * t * ((q + 2 : F) - v) := by
      unfold dotPrime; push_cast; ring
    have hsec' : dotSec (fun x => a + s * (((p + x : Nat) : F) - u) ^ 2 + t * (((q + 1 : Nat) : F) - v) ^ 2)
        = 24 * s := by
      unfold dotSec; push_cast; ring
    have hpr' : dotPrime (fun x => a + s * (((p + x : Nat) : F) - u) ^ 2 + t * (((q + 1 : Nat) : F) - v) ^ 2)
        = 24 * s * ((p + 2 : F) - u) := by
      unfold dotPrime; push_cast; ring
    have h24 : 24 * s ≠ 0 := mul_ne_zero (by norm_num) hs
    have h24' : 24 * t ≠ 0 := mul_ne_zero (by norm_num) ht
    rw [hsec, hpr, hsec', hpr']
    unfold quot
    rw [if_neg h24, if_neg h24', mul_div_cancel_left₀ _ h24, mul_div_cancel_left₀ _ h24']
    simp only [Option.map_some, Prod.mk.injEq, Option.some.injEq]
    push_cast
    constructor <;> ring
  refine ⟨main, ?_⟩
  rw [main]
  simp only [Prod.mk.injEq, Option.some.injEq]
  constructor
  · rintro ⟨e, -⟩; linarith
  · intro e; constructor <;> linarith

/-- a blob a quarter of pixel away from the pixel, in one direction -/
example : (cgSubpix (fun x y => 9 + (-1) * ((x : ℚ) - 21 / 4) ^ 2 + (-1) * ((y : ℚ) - 5) ^ 2) (5, 5)).2
    ≠ (some (21 / 4), some 5) := by
  intro h
  have := (C193_exchange_counterexample (9 : ℚ) (-1) (-1) (21 / 4) 5 (by norm_num) (by norm_num) (5, 5)
    (by norm_num) (by norm_num)).2.1 h
  norm_num at this

end Track
end Py
end Colloids
