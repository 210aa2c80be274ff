import Mathlib.Tactic.Linarith
import Mathlib.Tactic.Positivity
import Mathlib.Tactic.NormNum
import Mathlib.Data.Rat.Floor
import Verif.CommonLemmas
import Verif.Py.TrackDrawModel

/-!
# Balls and rods drawn by `python/colloids/track.py`
-/

namespace Colloids
namespace Py
namespace Track

variable {F : Type} [Field F] [LinearOrder F] [IsStrictOrderedRing F] [FloorRing F]

theorem trunc_nonneg {x : F} (h : 0 ≤ x) : trunc x = ⌊x⌋ := by simp [trunc, h]

/-- the indices of the slice of one axis -/
theorem inSlice_iff {n i : Nat} {p r : F} (hp : 0 ≤ p) (hr : 0 ≤ r) (hi : i < n) :
    inSlice (bounds n p r) i = true ↔ ⌊p - r⌋ ≤ (i : Int) ∧ (i : F) ≤ p + r := by
  have h1 : (0 : F) ≤ max 0 (p - r) := le_max_left _ _
  have h2 : (0 : F) ≤ min (n : F) (p + r + 1) := le_min (Nat.cast_nonneg n) (by linarith)
  simp only [inSlice, bounds, Bool.and_eq_true, decide_eq_true_eq, trunc_nonneg h1, trunc_nonneg h2]
  refine and_congr ?_ ?_
  · constructor
    · intro h
      exact le_trans (Int.floor_le_floor (le_max_right _ _)) h
    · intro h
      rcases le_total 0 (p - r) with h0 | h0
      · rwa [max_eq_right h0]
      · rw [max_eq_left h0, Int.floor_zero]
        exact Int.natCast_nonneg i
  · rw [← Int.add_one_le_iff, Int.le_floor]
    push_cast
    have hi' : ((i : F) + 1) ≤ n := by exact_mod_cast hi
    constructor
    · intro h
      linarith [min_le_right (n : F) (p + r + 1)]
    · intro h
      exact le_min hi' (by linarith)

theorem foldl_or (shape : Nat × Nat × Nat) (t : (F × F × F) × F → Nat → Nat → Nat → Bool)
    (l : List ((F × F × F) × F)) (im : Mask) (z y x : Nat) :
    l.foldl (fun im q => orBox shape q.1 q.2 (t q) im) im z y x = true ↔
      im z y x = true ∨ ∃ q ∈ l, ((inSlice (bounds shape.1 q.1.2.2 q.2) z = true
        ∧ inSlice (bounds shape.2.1 q.1.2.1 q.2) y = true) ∧ inSlice (bounds shape.2.2 q.1.1 q.2) x = true)
        ∧ t q z y x = true := by
  induction l generalizing im with
  | nil => simp
  | cons a l ih =>
    rw [List.foldl_cons, ih]
    simp only [orBox, Bool.or_eq_true, Bool.and_eq_true, List.mem_cons, exists_eq_or_imp, or_assoc]

/-- all positions are inside of the image -/
def Inside (shape : Nat × Nat × Nat) (pos : List (F × F × F)) : Prop :=
  ∀ p ∈ pos, 0 ≤ p.1 ∧ 0 ≤ p.2.1 ∧ 0 ≤ p.2.2 ∧
    p.1 < (shape.2.2 : F) ∧ p.2.1 < (shape.2.1 : F) ∧ p.2.2 < (shape.1 : F)

theorem checkPos_ok {shape : Nat × Nat × Nat} {pos : List (F × F × F)} (h0 : pos ≠ [])
    (h : Inside shape pos) : checkPos shape pos = .ok () := by
  unfold checkPos
  rw [if_neg h0, if_pos]
  rw [List.all_eq_true]
  intro p hp
  exact decide_eq_true (h p hp)

theorem axis_mem {n i : Nat} {p r : F} (hp : 0 ≤ p) (hr : 0 ≤ r) (hi : i < n)
    (h : (p - i) ^ 2 ≤ r ^ 2) : inSlice (bounds n p r) i = true := by
  have ha := abs_le_of_sq_le_sq' h hr
  rw [inSlice_iff hp hr hi]
  refine ⟨?_, by linarith⟩
  rw [← Int.cast_natCast (R := Int) i]
  have : ⌊p - r⌋ ≤ ⌊(i : F)⌋ := Int.floor_le_floor (by linarith)
  simpa using this

/-- **C191** `draw_spheres` draws the union of the balls: a voxel is set if and only if its distance to some
center is at most the radius of this one. -/
theorem C191_spheres (shape : Nat × Nat × Nat) (pos : List (F × F × F)) (radii : List F)
    (h0 : pos ≠ []) (hl : pos.length = radii.length) (hin : Inside shape pos) (hr : ∀ r ∈ radii, 0 ≤ r) :
    ∃ im, drawSpheres shape pos radii = .ok im ∧
      ∀ z y x, z < shape.1 → y < shape.2.1 → x < shape.2.2 →
        (im z y x = true ↔ ∃ (i : Nat) (p : F × F × F) (r : F), pos[i]? = some p ∧ radii[i]? = some r ∧
          (p.1 - x) ^ 2 + (p.2.1 - y) ^ 2 + (p.2.2 - z) ^ 2 ≤ r ^ 2) := by
  unfold drawSpheres
  rw [if_neg (by simp [hl]), checkPos_ok h0 hin, ok_bind]
  refine ⟨_, rfl, fun z y x hz hy hx => ?_⟩
  rw [foldl_or shape fun q z y x => decide ((q.1.2.2 - (z : F)) ^ 2 + (q.1.2.1 - (y : F)) ^ 2 + (q.1.1 - (x : F)) ^ 2 ≤ q.2 ^ 2)]
  simp only [Bool.false_eq_true, false_or, decide_eq_true_eq]
  constructor
  · rintro ⟨q, hq, -, ht⟩
    obtain ⟨i, hi⟩ := List.mem_iff_getElem?.1 hq
    rw [List.getElem?_zip_eq_some] at hi
    exact ⟨i, q.1, q.2, hi.1, hi.2, by linarith⟩
  · rintro ⟨i, p, r, hp, hr', hd⟩
    have hpi := hin p (List.mem_of_getElem? hp)
    have hr0 := hr r (List.mem_of_getElem? hr')
    refine ⟨(p, r), List.mem_iff_getElem?.2 ⟨i, List.getElem?_zip_eq_some.2 ⟨hp, hr'⟩⟩, ?_, by linarith⟩
    have s1 := sq_nonneg (p.1 - (x : F))
    have s2 := sq_nonneg (p.2.1 - (y : F))
    have s3 := sq_nonneg (p.2.2 - (z : F))
    exact ⟨⟨axis_mem hpi.2.2.1 hr0 hz (by linarith), axis_mem hpi.2.1 hr0 hy (by linarith)⟩,
      axis_mem hpi.1 hr0 hx (by linarith)⟩

/-- a ball of radius 2 in an image of 10 voxels -/
example : Inside (F := ℚ) (10, 10, 10) [(5, 5, 5)] ∧ ∀ r ∈ [(2 : ℚ)], 0 ≤ r := by
  constructor
  · intro p hp
    simp only [List.mem_singleton] at hp
    subst hp
    norm_num
  · simp

omit [IsStrictOrderedRing F] in
/-- **C191** Both functions refuse an empty list of positions, positions out of the image and lists of
different lengths. -/
theorem C191_errors (shape : Nat × Nat × Nat) (im0 : Option Mask) (pos : List (F × F × F)) (radii : List F) :
    (pos.length ≠ radii.length → drawSpheres shape pos radii = .error .logicError
      ∧ drawRods shape im0 pos radii = .error .logicError)
    ∧ (pos = [] → radii = [] → drawSpheres shape pos radii = .error .invalidArgument
      ∧ drawRods shape im0 pos radii = .error .invalidArgument)
    ∧ (pos.length = radii.length → pos ≠ [] → ¬ Inside shape pos →
      drawSpheres shape pos radii = .error .logicError
      ∧ drawRods shape im0 pos radii = .error .logicError) := by
  refine ⟨fun h => ?_, fun h h' => ?_, fun hl h0 h => ?_⟩
  · unfold drawSpheres drawRods
    simp only [if_pos h, and_self]
  · subst h h'
    exact ⟨rfl, rfl⟩
  · have : checkPos shape pos = .error .logicError := by
      unfold checkPos
      rw [if_neg h0, if_neg]
      rw [List.all_eq_true]
      intro h'
      exact h fun p hp => of_decide_eq_true (h' p hp)
    unfold drawSpheres drawRods
    rw [if_neg (by simp [hl]), if_neg (by simp [hl]), this]
    exact ⟨rfl, rfl⟩

example : ¬ Inside (F := ℚ) (10, 10, 10) [(5, 5, 12)] := by
  intro h
  have := (h (5, 5, 12) (by simp)).2.2.2.2.2
  norm_num at this

/-- **C191, partial** What `draw_rods` draws over the image it is given: voxels of which the distance to the axis
is at most the radius, from the floor of the lower end to the upper end.  The lower end ought to be
excluded when it is not an integer (see the counterexample). -/
theorem C191_rods_partial (shape : Nat × Nat × Nat) (im0 : Option Mask) (pos : List (F × F × F))
    (radii : List F) (h0 : pos ≠ []) (hl : pos.length = radii.length) (hin : Inside shape pos)
    (hr : ∀ r ∈ radii, 0 ≤ r) :
    ∃ im, drawRods shape im0 pos radii = .ok im ∧
      ∀ z y x, z < shape.1 → y < shape.2.1 → x < shape.2.2 →
        (im z y x = true ↔ (∃ i, im0 = some i ∧ i z y x = true) ∨
          ∃ (i : Nat) (p : F × F × F) (r : F), pos[i]? = some p ∧ radii[i]? = some r ∧
          (p.1 - x) ^ 2 + (p.2.1 - y) ^ 2 ≤ r ^ 2 ∧ ⌊p.2.2 - r⌋ ≤ (z : Int) ∧ (z : F) ≤ p.2.2 + r) := by
  unfold drawRods
  rw [if_neg (by simp [hl]), checkPos_ok h0 hin, ok_bind]
  refine ⟨_, rfl, fun z y x hz hy hx => ?_⟩
  rw [foldl_or shape fun q _ y x => decide ((q.1.2.1 - (y : F)) ^ 2 + (q.1.1 - (x : F)) ^ 2 ≤ q.2 ^ 2)]
  refine or_congr ?_ ?_
  · cases im0 <;> simp
  simp only [decide_eq_true_eq]
  constructor
  · rintro ⟨q, hq, ⟨⟨hbz, -⟩, -⟩, ht⟩
    obtain ⟨i, hi⟩ := List.mem_iff_getElem?.1 hq
    rw [List.getElem?_zip_eq_some] at hi
    have hpi := hin q.1 (List.mem_of_getElem? hi.1)
    have hr0 := hr q.2 (List.mem_of_getElem? hi.2)
    exact ⟨i, q.1, q.2, hi.1, hi.2, by linarith, (inSlice_iff hpi.2.2.1 hr0 hz).1 hbz⟩
  · rintro ⟨i, p, r, hp, hr', hd, hz'⟩
    have hpi := hin p (List.mem_of_getElem? hp)
    have hr0 := hr r (List.mem_of_getElem? hr')
    refine ⟨(p, r), List.mem_iff_getElem?.2 ⟨i, List.getElem?_zip_eq_some.2 ⟨hp, hr'⟩⟩, ?_, by linarith⟩
    have s1 := sq_nonneg (p.1 - (x : F))
    have s2 := sq_nonneg (p.2.1 - (y : F))
    exact ⟨⟨(inSlice_iff hpi.2.2.1 hr0 hz).2 hz', axis_mem hpi.2.1 hr0 hy (by linarith)⟩,
      axis_mem hpi.1 hr0 hx (by linarith)⟩

/-- **C191, counterexample** A rod of half length `r` goes too far down: whenever the height of the lower end
is not an integer, a voxel of the axis is drawn that is further than `r` below the center, though none is
above. -/
theorem C191_rods_counterexample (shape : Nat × Nat × Nat) (a b : Nat) (c r : F) (hr : 0 ≤ r)
    (ha : a < shape.2.2) (hb : b < shape.2.1) (hcn : c < shape.1) (hlow : 0 ≤ c - r)
    (hint : ∀ k : Int, (k : F) ≠ c - r) :
    ∃ im, drawRods shape none [((a : F), (b : F), c)] [r] = .ok im ∧
      (∃ z, z < shape.1 ∧ im z b a = true ∧ r < c - z) ∧
      ∀ z, z < shape.1 → im z b a = true → (z : F) - c ≤ r := by
  have hin : Inside shape [((a : F), (b : F), c)] := by
    intro p hp
    rw [List.mem_singleton] at hp
    subst hp
    exact ⟨Nat.cast_nonneg a, Nat.cast_nonneg b, by linarith, Nat.cast_lt.2 ha, Nat.cast_lt.2 hb, hcn⟩
  obtain ⟨im, h1, h2⟩ := C191_rods_partial shape none [((a : F), (b : F), c)] [r] (by simp) rfl hin
    (by simpa using hr)
  have hfl : (⌊c - r⌋ : F) < c - r := lt_of_le_of_ne (Int.floor_le _) (hint _)
  have hz0 : 0 ≤ ⌊c - r⌋ := Int.floor_nonneg.2 hlow
  obtain ⟨z, hz⟩ := Int.eq_ofNat_of_zero_le hz0
  have hzF : (z : F) < c - r := by
    rw [hz] at hfl
    simpa using hfl
  have hzn : z < shape.1 := by
    have : (z : F) < shape.1 := by linarith
    exact_mod_cast this
  refine ⟨im, h1, ⟨z, hzn, ?_, by linarith⟩, fun z hz h => ?_⟩
  · rw [h2 z b a hzn hb ha]
    refine Or.inr ⟨0, _, r, rfl, rfl, ?_, by rw [hz], by linarith⟩
    simp only [sub_self]
    nlinarith [sq_nonneg r]
  · rw [h2 z b a hz hb ha] at h
    rcases h with ⟨i, hi, -⟩ | ⟨i, p, r', hp, hr', -, -, hz'⟩
    · cases hi
    · cases i with
      | zero =>
        simp only [List.getElem?_cons_zero, Option.some.injEq] at hp hr'
        subst hp hr'
        linarith
      | succ i => simp at hp

/-- a rod of radius one half centered on an integer -/
example : (0 : ℚ) ≤ 1 / 2 ∧ (5 : ℚ) < (10 : Nat) ∧ (0 : ℚ) ≤ 5 - 1 / 2 ∧ ∀ k : Int, (k : ℚ) ≠ 5 - 1 / 2 := by
  refine ⟨by norm_num, by norm_num, by norm_num, fun k hk => ?_⟩
  have h : ((2 * k : Int) : ℚ) = ((9 : Int) : ℚ) := by push_cast; linarith
  have := Int.cast_injective h
  omega

end Track
end Py
end Colloids
