import Verif.Py.ExperimentLoadProps
import Mathlib.Algebra.Module.Pi
import Mathlib.Algebra.BigOperators.Group.List.Basic
import Mathlib.Tactic.Module

/-! # The drift removed by python from the trajectories -/

namespace Colloids
namespace Py
namespace Exp

theorem sliceAdd_ok {M : Type} [AddZeroClass M] (n : Nat) (g : Nat → M) (a : Nat) (xs : List M) (h : xs = [] ∨ a + xs.length ≤ n) :
    sliceAdd ((List.range n).map g) a xs = .ok ((List.range n).map fun j => g j + if a ≤ j then xs.getD (j - a) 0 else 0) := by
  unfold sliceAdd
  rw [if_pos (by simpa using h)]
  congr 1
  rcases h with rfl | h
  · simp
  · apply List.ext_getElem?
    intro i
    rw [List.getElem?_append, List.getElem?_append]
    simp only [List.length_append, List.length_take, List.length_zipWith, List.length_drop, List.length_map, List.length_range]
    have e1 : min a n = a := by omega
    have e2 : min (min xs.length (n - a)) xs.length = xs.length := by omega
    rw [e1, e2]
    by_cases h1 : i < a
    · rw [if_pos (by omega), if_pos h1, List.getElem?_take, if_pos h1, List.getElem?_map, List.getElem?_map, List.getElem?_range (by omega)]
      simp only [Option.map_some, Option.some.injEq]
      rw [if_neg (by omega), add_zero]
    · by_cases h2 : i < a + xs.length
      · rw [if_pos h2, if_neg h1, List.getElem?_zipWith, List.getElem?_take, if_pos (by omega), List.getElem?_drop, List.getElem?_map, List.getElem?_map,
          List.getElem?_range (by omega), List.getElem?_range (by omega), List.getElem?_eq_getElem (by omega : i - a < xs.length)]
        simp only [Option.map_some, Option.some.injEq]
        rw [if_pos (by omega), List.getD_eq_getElem?_getD, List.getElem?_eq_getElem (by omega : i - a < xs.length), Option.getD_some,
          show a + (i - a) = i from by omega]
      · rw [if_neg h2, List.getElem?_drop, show a + xs.length + (i - (a + xs.length)) = i from by omega, List.getElem?_map, List.getElem?_map]
        by_cases h3 : i < n
        · rw [List.getElem?_range h3]
          simp only [Option.map_some, Option.some.injEq]
          rw [if_pos (by omega), List.getD_eq_getElem?_getD, List.getElem?_eq_none (by omega : xs.length ≤ i - a), Option.getD_none, add_zero]
        · rw [List.getElem?_eq_none (by simpa using h3)]
          rfl

/-- A trajectory, with its starting time, exists at the times `t` and `t + 1`. -/
def Spans (x : List V × Nat) (t : Nat) : Prop := x.2 ≤ t ∧ t + 1 < x.2 + x.1.length

instance (x : List V × Nat) (t : Nat) : Decidable (Spans x t) := inferInstanceAs (Decidable (_ ∧ _))

/-- The displacement of a trajectory between the times `t` and `t + 1`, 0 if it does not exist at both. -/
noncomputable def stepAt (x : List V × Nat) (t : Nat) : V := if Spans x t then x.1.getD (t + 1 - x.2) 0 - x.1.getD (t - x.2) 0 else 0

theorem steps_length (tr : List V) : (steps tr).length = tr.length - 1 := by
  unfold steps; simp

theorem steps_at (x : List V × Nat) (t : Nat) : (if x.2 + 1 ≤ t + 1 then (steps x.1).getD (t + 1 - (x.2 + 1)) 0 else 0) = stepAt x t := by
  unfold stepAt
  by_cases h1 : x.2 ≤ t
  · rw [if_pos (by omega)]
    by_cases h2 : t + 1 < x.2 + x.1.length
    · rw [if_pos (show Spans x t from ⟨h1, h2⟩)]
      unfold steps
      rw [List.getD_eq_getElem?_getD, List.getElem?_zipWith, List.getElem?_drop, List.getElem?_dropLast, if_pos (by omega),
        List.getElem?_eq_getElem (by omega : 1 + (t + 1 - (x.2 + 1)) < x.1.length), List.getElem?_eq_getElem (by omega : t + 1 - (x.2 + 1) < x.1.length)]
      simp only [Option.getD_some]
      rw [List.getD_eq_getElem?_getD, List.getD_eq_getElem?_getD, List.getElem?_eq_getElem (by omega : t + 1 - x.2 < x.1.length),
        List.getElem?_eq_getElem (by omega : t - x.2 < x.1.length)]
      simp only [Option.getD_some, show t + 1 - (x.2 + 1) = t - x.2 from by omega, show 1 + (t - x.2) = t + 1 - x.2 from by omega]
    · rw [if_neg (fun h : Spans x t => h2 h.2), List.getD_eq_getElem?_getD, List.getElem?_eq_none, Option.getD_none]
      rw [steps_length]; omega
  · rw [if_neg (by omega), if_neg (fun h : Spans x t => h1 h.1)]

theorem steps_one (x : List V × Nat) (t : Nat) :
    (if x.2 + 1 ≤ t + 1 then ((steps x.1).map fun _ => 1).getD (t + 1 - (x.2 + 1)) 0 else 0) = if Spans x t then 1 else 0 := by
  by_cases h1 : x.2 ≤ t
  · rw [if_pos (by omega), List.getD_eq_getElem?_getD, List.getElem?_map]
    by_cases h2 : t + 1 < x.2 + x.1.length
    · rw [if_pos (show Spans x t from ⟨h1, h2⟩), List.getElem?_eq_getElem (by rw [steps_length]; omega)]
      rfl
    · rw [if_neg (fun h : Spans x t => h2 h.2), List.getElem?_eq_none]
      · rfl
      · rw [steps_length]; omega
  · rw [if_neg (by omega), if_neg (fun h : Spans x t => h1 h.1)]

/-- The sum of the displacements between `t - 1` and `t`. -/
noncomputable def sumAt (X : List (List V × Nat)) : Nat → V
  | 0 => 0
  | t + 1 => (X.map fun x => stepAt x t).sum

/-- The number of trajectories that exist at `t - 1` and `t`. -/
def numAt (X : List (List V × Nat)) : Nat → Nat
  | 0 => 0
  | t + 1 => (X.map fun x => if Spans x t then 1 else 0).sum

theorem driftSums_ok {size : Nat} {starts : List Nat} {trajpos : List (List V)} (hin : ∀ x ∈ trajpos.zip starts, x.2 + x.1.length ≤ size) :
    driftSums size starts trajpos = .ok ((List.range size).map (sumAt (trajpos.zip starts)), (List.range size).map (numAt (trajpos.zip starts))) := by
  unfold driftSums
  have gen : ∀ (X Y : List (List V × Nat)), (∀ x ∈ X, x.2 + x.1.length ≤ size) →
      X.foldlM (fun (s : List V × List Nat) x => do
        let d ← sliceAdd s.1 (x.2 + 1) (steps x.1)
        let n ← sliceAdd s.2 (x.2 + 1) ((steps x.1).map fun _ => 1)
        pure (d, n)) ((List.range size).map (sumAt Y), (List.range size).map (numAt Y))
      = .ok ((List.range size).map (sumAt (Y ++ X)), (List.range size).map (numAt (Y ++ X))) := by
    intro X
    induction X with
    | nil => intro Y _; rw [List.append_nil]; rfl
    | cons x X ih =>
      intro Y h
      have hx := h x (by simp)
      have hl : steps x.1 = [] ∨ x.2 + 1 + (steps x.1).length ≤ size := by
        by_cases h0 : x.1.length ≤ 1
        · left; apply List.length_eq_zero_iff.1; rw [steps_length]; omega
        · right; rw [steps_length]; omega
      rw [List.foldlM_cons]
      simp only
      rw [sliceAdd_ok _ _ _ _ hl, ok_bind, sliceAdd_ok _ _ _ _ (by simpa using hl), ok_bind, pure_eq_ok, ok_bind]
      have e1 : (fun j => sumAt Y j + if x.2 + 1 ≤ j then (steps x.1).getD (j - (x.2 + 1)) 0 else 0) = sumAt (Y ++ [x]) := by
        funext j
        cases j with
        | zero => simp [sumAt]
        | succ j => rw [steps_at]; simp [sumAt]
      have e2 : (fun j => numAt Y j + if x.2 + 1 ≤ j then ((steps x.1).map fun _ => 1).getD (j - (x.2 + 1)) 0 else 0) = numAt (Y ++ [x]) := by
        funext j
        cases j with
        | zero => simp [numAt]
        | succ j => rw [steps_one]; simp [numAt]
      rw [e1, e2, ih (Y ++ [x]) fun y hy => h y (by simp [hy])]
      simp
  have h0 : ((List.replicate size (0 : V)), (List.replicate size (0 : Nat))) = ((List.range size).map (sumAt []), (List.range size).map (numAt [])) := by
    congr 1
    · apply List.ext_getElem?
      intro i
      rw [List.getElem?_map, List.getElem?_replicate]
      by_cases h : i < size
      · rw [if_pos h, List.getElem?_range h]
        cases i <;> simp [sumAt]
      · rw [if_neg h, List.getElem?_eq_none (by simpa using h)]; rfl
    · apply List.ext_getElem?
      intro i
      rw [List.getElem?_map, List.getElem?_replicate]
      by_cases h : i < size
      · rw [if_pos h, List.getElem?_range h]
        cases i <;> simp [numAt]
      · rw [if_neg h, List.getElem?_eq_none (by simpa using h)]; rfl
  rw [h0, gen _ [] hin]
  simp

/-- The mean displacement between `t - 1` and `t`. -/
noncomputable def meanAt (X : List (List V × Nat)) (t : Nat) : V := (1 / ((max 1 (numAt X t) : Nat) : ℝ)) • sumAt X t

/-- The sum of the mean displacements up to a time. -/
noncomputable def driftAt (X : List (List V × Nat)) (t : Nat) : V := ((List.range (t + 1)).map (meanAt X)).sum

theorem drift_ok {size : Nat} {starts : List Nat} {trajpos : List (List V)} (hin : ∀ x ∈ trajpos.zip starts, x.2 + x.1.length ≤ size) :
    drift size starts trajpos = .ok ((List.range size).map (driftAt (trajpos.zip starts))) := by
  unfold drift
  rw [driftSums_ok hin, ok_bind, pure_eq_ok]
  congr 1
  have e : List.zipWith (fun (d : V) (n : Nat) => (1 / ((max 1 n : Nat) : ℝ)) • d) ((List.range size).map (sumAt (trajpos.zip starts)))
      ((List.range size).map (numAt (trajpos.zip starts))) = (List.range size).map (meanAt (trajpos.zip starts)) := by
    rw [List.zipWith_map, List.zipWith_self]
    rfl
  simp only
  rw [e]
  unfold cumsum
  rw [List.length_map, List.length_range]
  apply List.map_congr_left
  intro t ht
  have ht := List.mem_range.1 ht
  rw [← List.map_take, List.take_range, Nat.min_eq_left (by omega)]
  rfl

theorem driftAt_succ (X : List (List V × Nat)) (t : Nat) : driftAt X (t + 1) = driftAt X t + meanAt X (t + 1) := by
  unfold driftAt
  rw [List.range_succ (n := t + 1), List.map_append, List.sum_append]
  simp

/-- A trajectory without a drift. -/
noncomputable def minus (D : Nat → V) (x : List V × Nat) : List V := (List.range x.1.length).map fun i => x.1.getD i 0 - D (x.2 + i)

theorem minus_get (D : Nat → V) (x : List V × Nat) (i : Nat) : (minus D x)[i]? = (x.1[i]?).map fun v => v - D (x.2 + i) := by
  unfold minus
  rw [List.getElem?_map]
  by_cases h : i < x.1.length
  · rw [List.getElem?_range h, List.getElem?_eq_getElem h]
    simp only [Option.map_some, List.getD_eq_getElem?_getD, List.getElem?_eq_getElem h, Option.getD_some]
  · rw [List.getElem?_eq_none (by simpa using h), List.getElem?_eq_none (by omega)]
    rfl

theorem stepAt_minus (D : Nat → V) (x : List V × Nat) (t : Nat) :
    stepAt (minus D x, x.2) t = if Spans x t then stepAt x t - (D (t + 1) - D t) else 0 := by
  have hl : (minus D x).length = x.1.length := by unfold minus; simp
  by_cases h : Spans x t
  · have h' : Spans (minus D x, x.2) t := by unfold Spans at *; simpa [hl] using h
    unfold stepAt
    rw [if_pos h', if_pos h, if_pos h]
    obtain ⟨a, b⟩ := h
    simp only
    rw [List.getD_eq_getElem?_getD, List.getD_eq_getElem?_getD, List.getD_eq_getElem?_getD, List.getD_eq_getElem?_getD, minus_get, minus_get,
      List.getElem?_eq_getElem (by omega : t + 1 - x.2 < x.1.length), List.getElem?_eq_getElem (by omega : t - x.2 < x.1.length)]
    simp only [Option.map_some, Option.getD_some]
    rw [show x.2 + (t + 1 - x.2) = t + 1 from by omega, show x.2 + (t - x.2) = t from by omega]
    abel
  · have h' : ¬ Spans (minus D x, x.2) t := by unfold Spans at *; simpa [hl] using h
    unfold stepAt
    rw [if_neg h', if_neg h]

theorem sum_minus (D : Nat → V) (X : List (List V × Nat)) (t : Nat) :
    ((X.map fun x => (minus D x, x.2)).map fun x => stepAt x t).sum = sumAt X (t + 1) - numAt X (t + 1) • (D (t + 1) - D t) := by
  induction X with
  | nil => simp [sumAt, numAt]
  | cons x X ih =>
    rw [List.map_cons, List.map_cons, List.sum_cons, ih, stepAt_minus]
    simp only [sumAt, numAt, List.map_cons, List.sum_cons]
    by_cases h : Spans x t
    · rw [if_pos h, if_pos h, add_smul, one_smul]
      abel
    · rw [if_neg h, if_neg h, zero_add, zero_add]
      have : stepAt x t = 0 := by unfold stepAt; rw [if_neg h]
      rw [this, zero_add]

/-- C165. With `removedrift`, the same displacement is removed from all the trajectories at a same time, nothing at the first time, and the
displacement of the trajectories is null on average between any two times that follow each other. -/
theorem C165_drift {size : Nat} {starts : List Nat} {trajpos : List (List V)} (hs : starts.length = trajpos.length)
    (hin : ∀ x ∈ trajpos.zip starts, x.2 + x.1.length ≤ size) :
    ∃ (r : List (List V)) (D : Nat → V), removeDrift size starts trajpos = .ok r ∧ D 0 = 0 ∧ r.length = trajpos.length
      ∧ (∀ tr start, starts[tr]? = some start → ∀ dt, get2 r tr dt = (get2 trajpos tr dt).map fun v => v - D (start + dt))
      ∧ ∀ t, ((r.zip starts).map fun x => stepAt x t).sum = 0 := by
  have hok : removeDrift size starts trajpos = .ok ((trajpos.zip starts).map (minus (driftAt (trajpos.zip starts)))) := by
    unfold removeDrift
    rw [drift_ok hin, ok_bind]
    apply TreeIndex.mapM_ok_of
    intro x hx
    have hx' := hin x hx
    have hlen : (((List.range size).map (driftAt (trajpos.zip starts))).drop x.2 |>.take x.1.length).length = x.1.length := by
      simp; omega
    rw [if_pos hlen, pure_eq_ok]
    congr 1
    apply List.ext_getElem?
    intro i
    rw [List.getElem?_zipWith, minus_get, List.getElem?_take]
    by_cases h : i < x.1.length
    · rw [List.getElem?_eq_getElem h, if_pos h, List.getElem?_drop, List.getElem?_map, List.getElem?_range (by omega)]
      rfl
    · rw [List.getElem?_eq_none (by omega), if_neg h]
      rfl
  have hzip : ((trajpos.zip starts).map (minus (driftAt (trajpos.zip starts)))).zip starts
      = (trajpos.zip starts).map fun x => (minus (driftAt (trajpos.zip starts)) x, x.2) := by
    have : (trajpos.zip starts).map Prod.snd = starts := List.map_snd_zip (by omega)
    generalize driftAt (trajpos.zip starts) = D
    generalize trajpos.zip starts = X at this
    rw [← this, List.zip_map']
  refine ⟨_, driftAt (trajpos.zip starts), hok, ?_, by simp [hs], ?_, ?_⟩
  · unfold driftAt meanAt sumAt
    simp
  · intro tr start hst dt
    unfold get2
    rw [List.getElem?_map]
    have htr : tr < trajpos.length := by
      have := (List.getElem?_eq_some_iff.1 hst).1
      omega
    have hz : (trajpos.zip starts)[tr]? = some (trajpos[tr], start) := by
      rw [List.getElem?_zip_eq_some]
      exact ⟨List.getElem?_eq_getElem htr, hst⟩
    rw [hz, List.getElem?_eq_getElem htr]
    simp only [Option.map_some, Option.bind_some]
    rw [minus_get]
  · intro t
    rw [hzip, sum_minus, driftAt_succ]
    have : driftAt (trajpos.zip starts) t + meanAt (trajpos.zip starts) (t + 1) - driftAt (trajpos.zip starts) t = meanAt (trajpos.zip starts) (t + 1) := by abel
    rw [this]
    unfold meanAt
    by_cases h : numAt (trajpos.zip starts) (t + 1) = 0
    · have h0 : sumAt (trajpos.zip starts) (t + 1) = 0 := by
        generalize trajpos.zip starts = X at *
        clear hok hzip hin this
        induction X with
        | nil => simp [sumAt]
        | cons x X ih =>
          simp only [numAt, sumAt, List.map_cons, List.sum_cons] at *
          by_cases hx : Spans x t
          · rw [if_pos hx] at h; omega
          · rw [ih (by omega)]
            unfold stepAt
            rw [if_neg hx, zero_add]
      rw [h, h0]
      simp
    · have h1 : max 1 (numAt (trajpos.zip starts) (t + 1)) = numAt (trajpos.zip starts) (t + 1) := by omega
      rw [h1, ← Nat.cast_smul_eq_nsmul ℝ, smul_smul, mul_one_div_cancel (by exact_mod_cast h), one_smul, sub_self]

/-- Two trajectories, one of them starting later. -/
example : ∀ x ∈ ([[fun _ => 0, fun _ => 1, fun _ => 2], [fun _ => 1]] : List (List V)).zip [0, 2], x.2 + x.1.length ≤ 3 := by
  simp

end Exp
end Py
end Colloids
