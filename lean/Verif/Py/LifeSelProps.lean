import Mathlib.Algebra.Order.Ring.Rat
import Mathlib.Order.Bounds.Basic
import Mathlib.Tactic.Linarith
import Mathlib.Tactic.NormNum
import Verif.CommonLemmas
import Verif.Index.Lemmas
import Verif.Py.LifeModel

/-!
# Selections of trajectories
-/

namespace Colloids
namespace Py
namespace Life

section Sel

variable {F : Type} [Field F] [LinearOrder F]

omit [Field F] in
theorem foldl_min_spec (a : F) (l : List F) : l.foldl min a ∈ a :: l ∧ ∀ x ∈ a :: l, l.foldl min a ≤ x := by
  induction l generalizing a with
  | nil => simp
  | cons b l ih =>
    rw [List.foldl_cons]
    obtain ⟨h1, h2⟩ := ih (min a b)
    constructor
    · rcases List.mem_cons.1 h1 with h | h
      · rw [h]
        rcases min_choice a b with e | e <;> rw [e] <;> simp
      · exact List.mem_cons_of_mem _ (List.mem_cons_of_mem _ h)
    · intro x hx
      have h0 := h2 (min a b) (List.mem_cons_self ..)
      rcases List.mem_cons.1 hx with rfl | hx
      · exact h0.trans (min_le_left _ _)
      · rcases List.mem_cons.1 hx with rfl | hx
        · exact h0.trans (min_le_right _ _)
        · exact h2 x (List.mem_cons_of_mem _ hx)

omit [Field F] in
theorem foldl_max_spec (a : F) (l : List F) : l.foldl max a ∈ a :: l ∧ ∀ x ∈ a :: l, x ≤ l.foldl max a := by
  induction l generalizing a with
  | nil => simp
  | cons b l ih =>
    rw [List.foldl_cons]
    obtain ⟨h1, h2⟩ := ih (max a b)
    constructor
    · rcases List.mem_cons.1 h1 with h | h
      · rw [h]
        rcases max_choice a b with e | e <;> rw [e] <;> simp
      · exact List.mem_cons_of_mem _ (List.mem_cons_of_mem _ h)
    · intro x hx
      have h0 := h2 (max a b) (List.mem_cons_self ..)
      rcases List.mem_cons.1 hx with rfl | hx
      · exact (le_max_left _ _).trans h0
      · rcases List.mem_cons.1 hx with rfl | hx
        · exact (le_max_right _ _).trans h0
        · exact h2 x (List.mem_cons_of_mem _ hx)

/-! ### z_slab -/

/-- **C208** `z_slab` with `allTimes=True` keeps, in order, the trajectories that are in the slab at some time. -/
theorem C208_slab (T n : Nat) (z : Nat → Nat → F) (bottom top : F) :
    ∃ sel, zSlab T n z bottom top true = .ok sel ∧ sel.Pairwise (· < ·) ∧
      ∀ p, p ∈ sel ↔ p < n ∧ ∃ t < T, bottom < z t p ∧ z t p < top := by
  refine ⟨_, if_pos rfl, List.Pairwise.filter _ List.pairwise_lt_range, fun p => ?_⟩
  simp [List.mem_filter, List.any_eq_true]

/-- **C208** With `allTimes=False`, those that are above the bottom at some time and below the top at some time. -/
theorem C208_slab_not_all (T n : Nat) (hT : 0 < T) (z : Nat → Nat → F) (bottom top : F) :
    ∃ sel, zSlab T n z bottom top false = .ok sel ∧ sel.Pairwise (· < ·) ∧
      ∀ p, p ∈ sel ↔ p < n ∧ (∃ t < T, bottom < z t p) ∧ ∃ t < T, z t p < top := by
  obtain ⟨T, rfl⟩ := Nat.exists_eq_succ_of_ne_zero hT.ne'
  refine ⟨_, rfl, List.Pairwise.filter _ List.pairwise_lt_range, fun p => ?_⟩
  obtain ⟨a1, a2⟩ := foldl_max_spec (z 0 p) ((List.range (T + 1)).map fun t => z t p)
  obtain ⟨b1, b2⟩ := foldl_min_spec (z 0 p) ((List.range (T + 1)).map fun t => z t p)
  have hm : ∀ x, x ∈ z 0 p :: (List.range (T + 1)).map (fun t => z t p) ↔ ∃ t < T + 1, z t p = x := by
    intro x
    simp only [List.mem_cons, List.mem_map, List.mem_range]
    constructor
    · rintro (rfl | h)
      · exact ⟨0, by omega, rfl⟩
      · exact h
    · exact Or.inr
  rw [List.mem_filter, List.mem_range, Bool.and_eq_true, decide_eq_true_eq, decide_eq_true_eq]
  refine and_congr_right fun _ => and_congr ?_ ?_
  · constructor
    · intro h
      obtain ⟨t, ht, e⟩ := (hm _).1 a1
      exact ⟨t, ht, by rw [e]; exact h⟩
    · rintro ⟨t, ht, h⟩
      exact h.trans_le (a2 _ ((hm _).2 ⟨t, ht, rfl⟩))
  · constructor
    · intro h
      obtain ⟨t, ht, e⟩ := (hm _).1 b1
      exact ⟨t, ht, by rw [e]; exact h⟩
    · rintro ⟨t, ht, h⟩
      exact (b2 _ ((hm _).2 ⟨t, ht, rfl⟩)).trans_lt h

/-- **C208** The selection of all times is right when no trajectory crosses the limits of the slab. -/
theorem C208_slab_partial (T n : Nat) (hT : 0 < T) (z : Nat → Nat → F) (bottom top : F)
    (h : ∀ p < n, ∀ t < T, ∀ t' < T, (bottom < z t p ∧ z t p < top) → bottom < z t' p ∧ z t' p < top) :
    ∃ sel, zSlab T n z bottom top true = .ok sel ∧ ∀ p, p ∈ sel ↔ p < n ∧ ∀ t < T, bottom < z t p ∧ z t p < top := by
  obtain ⟨sel, h1, -, h2⟩ := C208_slab T n z bottom top
  refine ⟨sel, h1, fun p => ?_⟩
  rw [h2]
  refine and_congr_right fun hp => ?_
  constructor
  · rintro ⟨t, ht, hz⟩ t' ht'
    exact h p hp t ht t' ht' hz
  · intro ha
    exact ⟨0, hT, ha 0 hT⟩

/-- **C208** Counterexample: with `allTimes=True`, a trajectory that is in the slab at one time is kept even if it is out at all other times. -/
theorem C208_all_times_counterexample (T n : Nat) (z : Nat → Nat → F) (bottom top : F) (p : Nat) (hp : p < n) (t : Nat) (ht : t < T)
    (h1 : bottom < z t p ∧ z t p < top) :
    ∃ sel, zSlab T n z bottom top true = .ok sel ∧ p ∈ sel := by
  obtain ⟨sel, h, -, h2⟩ := C208_slab T n z bottom top
  exact ⟨sel, h, (h2 p).2 ⟨hp, t, ht, h1⟩⟩

example : (0 : ℚ) < (fun t _ : Nat => if t = 3 then 1 else 7) 3 0 ∧ (fun t _ : Nat => if t = 3 then (1 : ℚ) else 7) 3 0 < 2 := by norm_num

/-- **C208** Counterexample: with `allTimes=False`, a trajectory that jumps from below the slab to above it is kept though it is never in the slab. -/
theorem C208_jump_counterexample (T n : Nat) (z : Nat → Nat → F) (bottom top : F) (hbt : bottom < top) (p : Nat) (hp : p < n) (t t' : Nat) (ht : t < T)
    (ht' : t' < T) (h1 : z t p ≤ bottom) (h2 : top ≤ z t' p) :
    ∃ sel, zSlab T n z bottom top false = .ok sel ∧ p ∈ sel := by
  obtain ⟨sel, h, -, h3⟩ := C208_slab_not_all T n (by omega) z bottom top
  exact ⟨sel, h, (h3 p).2 ⟨hp, ⟨t', ht', hbt.trans_le h2⟩, ⟨t, ht, h1.trans_lt hbt⟩⟩⟩

example : (fun t _ : Nat => if t = 0 then (0 : ℚ) else 7) 0 0 ≤ 1 ∧ (2 : ℚ) ≤ (fun t _ : Nat => if t = 0 then (0 : ℚ) else 7) 1 0 := by norm_num

/-- **C208** What is kept with `allTimes=True` is kept with `allTimes=False`. -/
theorem C208_subset (T n : Nat) (hT : 0 < T) (z : Nat → Nat → F) (bottom top : F) :
    ∃ s1 s2, zSlab T n z bottom top true = .ok s1 ∧ zSlab T n z bottom top false = .ok s2 ∧ ∀ p ∈ s1, p ∈ s2 := by
  obtain ⟨s1, a1, -, a2⟩ := C208_slab T n z bottom top
  obtain ⟨s2, b1, -, b2⟩ := C208_slab_not_all T n hT z bottom top
  refine ⟨s1, s2, a1, b1, fun p hp => ?_⟩
  obtain ⟨hn, t, ht, h1, h2⟩ := (a2 p).1 hp
  exact (b2 p).2 ⟨hn, ⟨t, ht, h1⟩, ⟨t, ht, h2⟩⟩

/-! ### exclude_null -/

/-- trajectory `i` has value `v t i` at each time `t` of a file -/
def HasValues (T offset : Nat) (files : List (List F)) (trajs : List (List Nat)) (v : Nat → Nat → F) : Prop :=
  ∀ i tr, trajs[i]? = some tr → ∀ t, offset ≤ t → t < offset + files.length → t < T →
    ∃ p f, tr[t]? = some p ∧ files[t - offset]? = some f ∧ f[p]? = some (v t i)

omit [LinearOrder F] in
theorem nullRow_eq (T offset : Nat) (files : List (List F)) (trajs : List (List Nat)) (v : Nat → Nat → F) (h : HasValues T offset files trajs v) (t : Nat)
    (ht : t < T) : nullRow T offset files trajs t =
      .ok ((List.range trajs.length).map fun i => if offset ≤ t ∧ t < offset + files.length then v t i else 0) := by
  unfold nullRow
  by_cases hc : offset ≤ t ∧ t < offset + files.length
  · rw [if_pos ⟨hc.1, hc.2, ht⟩]
    simp only [if_pos hc]
    have key : ∀ (l : List (List Nat)) (k : Nat), (∀ i tr, l[i]? = some tr → ∃ p f, tr[t]? = some p ∧ files[t - offset]? = some f ∧ f[p]? = some (v t (k + i))) →
        (l.mapM fun tr => do
          let p ← idx tr t
          let f ← idx files (t - offset)
          idx f p) = (.ok ((List.range l.length).map fun i => v t (k + i)) : R (List F)) := by
      intro l
      induction l with
      | nil => intro k _; rfl
      | cons a l ih =>
        intro k hl
        obtain ⟨p, f, e1, e2, e3⟩ := hl 0 a rfl
        rw [List.mapM_cons, ih (k + 1) (by
          intro i tr hi
          have := hl (i + 1) tr (by simpa using hi)
          rw [show k + 1 + i = k + (i + 1) by omega]
          exact this)]
        have i1 : idx a t = .ok p := by unfold idx; rw [e1]
        have i2 : idx files (t - offset) = .ok f := by unfold idx; rw [e2]
        have i3 : idx f p = .ok (v t (k + 0)) := by unfold idx; rw [e3]
        rw [i1, ok_bind, i2, ok_bind, i3, ok_bind, ok_bind, List.length_cons, List.range_succ_eq_map, List.map_cons, List.map_map]
        have : ((fun i => v t (k + i)) ∘ Nat.succ) = fun i => v t (k + 1 + i) := by
          funext i
          simp only [Function.comp_apply, Nat.succ_eq_add_one]
          rw [show k + (i + 1) = k + 1 + i by omega]
        rw [this]
        rfl
    have := key trajs 0 (by
      intro i tr hi
      rw [Nat.zero_add]
      exact h i tr hi t hc.1 hc.2 ht)
    simpa using this
  · rw [if_neg (fun e => hc ⟨e.1, e.2.1⟩)]
    simp only [if_neg hc]
    congr 1
    apply List.ext_getElem <;> simp

/-- **C208** `exclude_null` keeps the trajectories of which the smallest value is not zero; at times without a file the value is zero. -/
theorem C208_null (T offset : Nat) (hT : 0 < T) (files : List (List F)) (trajs : List (List Nat)) (v : Nat → Nat → F)
    (h : HasValues T offset files trajs v) :
    ∃ sel, excludeNull T offset files trajs = .ok sel ∧ sel.Pairwise (· < ·) ∧ ∀ i, i ∈ sel ↔ i < trajs.length ∧
      ¬ IsLeast {x | ∃ t < T, x = if offset ≤ t ∧ t < offset + files.length then v t i else 0} (0 : F) := by
  obtain ⟨T, rfl⟩ := Nat.exists_eq_succ_of_ne_zero hT.ne'
  unfold excludeNull
  rw [TreeIndex.mapM_ok_of _ (fun t => (List.range trajs.length).map fun i => if offset ≤ t ∧ t < offset + files.length then v t i else 0) _
    (fun t ht => nullRow_eq _ offset files trajs v h t (List.mem_range.1 ht)), ok_bind, Nat.succ_eq_add_one, List.range_succ_eq_map, List.map_cons]
  refine ⟨_, rfl, List.Pairwise.filter _ List.pairwise_lt_range, fun i => ?_⟩
  rw [List.mem_filter, List.mem_range, decide_eq_true_eq]
  refine and_congr_right fun hi => not_congr ?_
  have hg : ∀ t, ((List.range trajs.length).map fun i => if offset ≤ t ∧ t < offset + files.length then v t i else 0).getD i 0 =
      if offset ≤ t ∧ t < offset + files.length then v t i else 0 := by
    intro t
    rw [List.getD_eq_getElem?_getD, List.getElem?_map, List.getElem?_range hi]
    rfl
  rw [List.map_map, List.map_map, hg]
  set w : Nat → F := fun t => if offset ≤ t ∧ t < offset + files.length then v t i else 0 with hw
  have hmap : List.map (((fun row => row.getD i 0) ∘ fun t => (List.range trajs.length).map fun i => if offset ≤ t ∧ t < offset + files.length then v t i else 0) ∘
      Nat.succ) (List.range T) = (List.range T).map fun t => w (t + 1) := by
    apply List.map_congr_left
    intro t _
    exact hg (t + 1)
  rw [hmap]
  obtain ⟨b1, b2⟩ := foldl_min_spec (w 0) ((List.range T).map fun t => w (t + 1))
  have hm : ∀ x, x ∈ w 0 :: (List.range T).map (fun t => w (t + 1)) ↔ ∃ t < T + 1, x = w t := by
    intro x
    simp only [List.mem_cons, List.mem_map, List.mem_range]
    constructor
    · rintro (rfl | ⟨t, ht, rfl⟩)
      · exact ⟨0, by omega, rfl⟩
      · exact ⟨t + 1, by omega, rfl⟩
    · rintro ⟨t, ht, rfl⟩
      rcases t with _ | t
      · exact Or.inl rfl
      · exact Or.inr ⟨t, by omega, rfl⟩
  constructor
  · intro e
    change List.foldl min (w 0) _ = 0 at e
    rw [e] at b1 b2
    exact ⟨(hm 0).1 b1, fun x hx => b2 x ((hm x).2 hx)⟩
  · intro e
    change List.foldl min (w 0) _ = 0
    exact le_antisymm (b2 0 ((hm 0).2 e.1)) (e.2 ((hm _).1 b1))

/-- **C208** When no value is negative and all times have a file, the trajectories with a null value are removed and no other. -/
theorem C208_null_partial (T : Nat) (hT : 0 < T) (files : List (List F)) (hf : T ≤ files.length) (trajs : List (List Nat)) (v : Nat → Nat → F)
    (h : HasValues T 0 files trajs v) (hpos : ∀ t < T, ∀ i < trajs.length, 0 ≤ v t i) :
    ∃ sel, excludeNull T 0 files trajs = .ok sel ∧ ∀ i, i ∈ sel ↔ i < trajs.length ∧ ∀ t < T, v t i ≠ 0 := by
  obtain ⟨sel, h1, -, h2⟩ := C208_null T 0 hT files trajs v h
  refine ⟨sel, h1, fun i => ?_⟩
  rw [h2]
  refine and_congr_right fun hi => ?_
  constructor
  · intro hn t ht e
    apply hn
    refine ⟨⟨t, ht, by rw [if_pos ⟨Nat.zero_le _, by omega⟩, e]⟩, ?_⟩
    rintro x ⟨t', ht', rfl⟩
    rw [if_pos ⟨Nat.zero_le _, by omega⟩]
    exact hpos t' ht' i hi
  · rintro ha ⟨⟨t, ht, e⟩, -⟩
    rw [if_pos ⟨Nat.zero_le _, by omega⟩] at e
    exact ha t ht e.symm

/-- **C208** Counterexample: a trajectory with a negative value is kept, whatever its other values are: a null value at another time is not seen. -/
theorem C208_negative_counterexample (T : Nat) (files : List (List F)) (hf : T ≤ files.length) (trajs : List (List Nat)) (v : Nat → Nat → F)
    (h : HasValues T 0 files trajs v) (i t : Nat) (hi : i < trajs.length) (ht : t < T) (hneg : v t i < 0) :
    ∃ sel, excludeNull T 0 files trajs = .ok sel ∧ i ∈ sel := by
  obtain ⟨sel, h1, -, h2⟩ := C208_null T 0 (by omega) files trajs v h
  refine ⟨sel, h1, (h2 i).2 ⟨hi, fun hl => ?_⟩⟩
  exact absurd (hl.2 ⟨t, ht, rfl⟩) (by rw [if_pos ⟨Nat.zero_le _, by omega⟩]; exact not_le.2 hneg)

/-- **C208** Counterexample: when the times of the files begin at 1 or later and no value is negative, all trajectories are removed. -/
theorem C208_offset_counterexample (T offset : Nat) (hT : 0 < T) (ho : 1 ≤ offset) (files : List (List F)) (trajs : List (List Nat)) (v : Nat → Nat → F)
    (h : HasValues T offset files trajs v) (hpos : ∀ t < T, ∀ i < trajs.length, 0 ≤ v t i) :
    excludeNull T offset files trajs = .ok [] := by
  obtain ⟨sel, h1, -, h2⟩ := C208_null T offset hT files trajs v h
  rw [h1]
  congr 1
  rw [List.eq_nil_iff_forall_not_mem]
  intro i hi
  obtain ⟨hlt, hn⟩ := (h2 i).1 hi
  apply hn
  refine ⟨⟨0, hT, by rw [if_neg (by omega)]⟩, ?_⟩
  rintro x ⟨t, ht, rfl⟩
  split
  · exact hpos t ht i hlt
  · exact le_rfl

/-- two trajectories of two times; the first has a null value and a negative one -/
example : HasValues 2 0 [[(0 : ℚ), 3], [-1, 4]] [[0, 0], [1, 1]] (fun t i => if i = 0 then (if t = 0 then 0 else -1) else if t = 0 then 3 else 4) := by
  intro i tr hi t _ _ ht
  rcases i with _ | _ | i
  · simp at hi; subst hi
    rcases t with _ | _ | t
    · exact ⟨0, _, rfl, rfl, rfl⟩
    · exact ⟨0, _, rfl, rfl, rfl⟩
    · omega
  · simp at hi; subst hi
    rcases t with _ | _ | t
    · exact ⟨1, _, rfl, rfl, rfl⟩
    · exact ⟨1, _, rfl, rfl, rfl⟩
    · omega
  · simp at hi

end Sel

end Life
end Py
end Colloids
