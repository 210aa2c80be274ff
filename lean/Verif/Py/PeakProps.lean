import Verif.Py.PeakModel
import Verif.CommonLemmas
import Mathlib.Data.List.MinMax
import Mathlib.Tactic.Linarith

/-! # Peaks and minima in python (C174) -/

namespace Colloids
namespace Py
namespace Peak

variable {α : Type} [LinearOrder α]

/-- The first index, from `s`, of the largest value from `s`. -/
def IsMax (a : List α) (s i : Nat) : Prop :=
  s ≤ i ∧ ∃ x, a[i]? = some x ∧ (∀ (j : Nat) (y : α), s ≤ j → a[j]? = some y → y ≤ x) ∧ ∀ (j : Nat) (y : α), s ≤ j → j < i → a[j]? = some y → y < x

/-- The first index, from `s`, of the smallest value from `s`. -/
def IsMin (a : List α) (s i : Nat) : Prop :=
  s ≤ i ∧ ∃ x, a[i]? = some x ∧ (∀ (j : Nat) (y : α), s ≤ j → a[j]? = some y → x ≤ y) ∧ ∀ (j : Nat) (y : α), s ≤ j → j < i → a[j]? = some y → x < y

theorem exists_max (l : List α) (h : l ≠ []) : ∃ x ∈ l, ∀ y ∈ l, y ≤ x := by
  induction l with
  | nil => exact absurd rfl h
  | cons c l ih =>
    by_cases hl : l = []
    · subst hl
      exact ⟨c, by simp, by simp⟩
    · obtain ⟨x, hx, hm⟩ := ih hl
      rcases le_total c x with hc | hc
      · exact ⟨x, by simp [hx], fun y hy => by rcases List.mem_cons.1 hy with rfl | hy <;> [exact hc; exact hm y hy]⟩
      · exact ⟨c, by simp, fun y hy => by rcases List.mem_cons.1 hy with rfl | hy <;> [exact le_rfl; exact (hm y hy).trans hc]⟩

theorem exists_min (l : List α) (h : l ≠ []) : ∃ x ∈ l, ∀ y ∈ l, x ≤ y := by
  induction l with
  | nil => exact absurd rfl h
  | cons c l ih =>
    by_cases hl : l = []
    · subst hl
      exact ⟨c, by simp, by simp⟩
    · obtain ⟨x, hx, hm⟩ := ih hl
      rcases le_total c x with hc | hc
      · exact ⟨c, by simp, fun y hy => by rcases List.mem_cons.1 hy with rfl | hy <;> [exact le_rfl; exact hc.trans (hm y hy)]⟩
      · exact ⟨x, by simp [hx], fun y hy => by rcases List.mem_cons.1 hy with rfl | hy <;> [exact hc; exact hm y hy]⟩

theorem argmax_ok (a : List α) {s : Nat} (h : s < a.length) : ∃ i, argmax (a.drop s) = .ok i ∧ IsMax a s (s + i) := by
  have hne : a.drop s ≠ [] := by
    intro e
    have := List.drop_eq_nil_iff.1 e
    omega
  obtain ⟨x, hx, hm⟩ := exists_max (a.drop s) hne
  cases hf : (a.drop s).findIdx? (fun x => (a.drop s).all fun y => decide (y ≤ x)) with
  | none =>
    rw [List.findIdx?_eq_none_iff] at hf
    have := hf x hx
    simp only [List.all_eq_false, decide_eq_true_eq] at this
    obtain ⟨y, hy, hn⟩ := this
    exact absurd (hm y hy) hn
  | some i =>
    refine ⟨i, by unfold argmax; rw [hf], Nat.le_add_right _ _, ?_⟩
    obtain ⟨hi, h1, h2⟩ := List.findIdx?_eq_some_iff_getElem.1 hf
    simp only [List.all_eq_true, decide_eq_true_eq] at h1
    refine ⟨(a.drop s)[i], by rw [← List.getElem?_drop, List.getElem?_eq_getElem hi], ?_, ?_⟩
    · intro j y hj hy
      refine h1 y ?_
      have : (a.drop s)[j - s]? = some y := by rw [List.getElem?_drop, ← hy]; congr 1; omega
      exact List.mem_of_getElem? this
    · intro j y hj hji hy
      have hy' : (a.drop s)[j - s]? = some y := by rw [List.getElem?_drop, ← hy]; congr 1; omega
      have := h2 (j - s) (by omega)
      obtain ⟨hlt, e⟩ := List.getElem?_eq_some_iff.1 hy'
      rw [e] at this
      simp only [Bool.not_eq_true, List.all_eq_false, decide_eq_true_eq] at this
      obtain ⟨z, hz, hn⟩ := this
      exact lt_of_lt_of_le (not_le.1 hn) (h1 z hz)

theorem argmin_ok (a : List α) {s : Nat} (h : s < a.length) : ∃ i, argmin (a.drop s) = .ok i ∧ IsMin a s (s + i) := by
  have hne : a.drop s ≠ [] := by
    intro e
    have := List.drop_eq_nil_iff.1 e
    omega
  obtain ⟨x, hx, hm⟩ := exists_min (a.drop s) hne
  cases hf : (a.drop s).findIdx? (fun x => (a.drop s).all fun y => decide (x ≤ y)) with
  | none =>
    rw [List.findIdx?_eq_none_iff] at hf
    have := hf x hx
    simp only [List.all_eq_false, decide_eq_true_eq] at this
    obtain ⟨y, hy, hn⟩ := this
    exact absurd (hm y hy) hn
  | some i =>
    refine ⟨i, by unfold argmin; rw [hf], Nat.le_add_right _ _, ?_⟩
    obtain ⟨hi, h1, h2⟩ := List.findIdx?_eq_some_iff_getElem.1 hf
    simp only [List.all_eq_true, decide_eq_true_eq] at h1
    refine ⟨(a.drop s)[i], by rw [← List.getElem?_drop, List.getElem?_eq_getElem hi], ?_, ?_⟩
    · intro j y hj hy
      refine h1 y ?_
      have : (a.drop s)[j - s]? = some y := by rw [List.getElem?_drop, ← hy]; congr 1; omega
      exact List.mem_of_getElem? this
    · intro j y hj hji hy
      have hy' : (a.drop s)[j - s]? = some y := by rw [List.getElem?_drop, ← hy]; congr 1; omega
      have := h2 (j - s) (by omega)
      obtain ⟨hlt, e⟩ := List.getElem?_eq_some_iff.1 hy'
      rw [e] at this
      simp only [Bool.not_eq_true, List.all_eq_false, decide_eq_true_eq] at this
      obtain ⟨z, hz, hn⟩ := this
      exact lt_of_le_of_lt (h1 z hz) (not_le.1 hn)

theorem IsMax.lt {a : List α} {s i : Nat} (h : IsMax a s i) : i < a.length := by
  obtain ⟨-, x, hx, -⟩ := h
  exact (List.getElem?_eq_some_iff.1 hx).1

theorem IsMin.lt {a : List α} {s i : Nat} (h : IsMin a s i) : i < a.length := by
  obtain ⟨-, x, hx, -⟩ := h
  exact (List.getElem?_eq_some_iff.1 hx).1

/-- The two last values are different. -/
def EndsMoving (a : List α) : Prop := a.length = 1 ∨ (2 ≤ a.length ∧ a[a.length - 1]? ≠ a[a.length - 2]?)

/-- A minimum is after the maximum it comes from, unless the values are constant. -/
theorem min_after {a : List α} {s p m : Nat} (hp : IsMax a s p) (hm : IsMin a p m) (hl : p + 1 < a.length) (he : EndsMoving a) : p < m := by
  obtain ⟨hsp, x, hx, hmax, -⟩ := hp
  obtain ⟨hpm, y, hy, hmin, -⟩ := hm
  rcases Nat.lt_or_ge p m with h | h
  · exact h
  · exfalso
    have : m = p := by omega
    subst this
    rw [hx, Option.some.injEq] at hy
    subst hy
    have hc : ∀ j, m ≤ j → j < a.length → a[j]? = some x := by
      intro j hj hlt
      have e := List.getElem?_eq_getElem hlt
      rw [e]
      exact congrArg some (le_antisymm (hmax j _ (by omega) e) (hmin j _ hj e))
    rcases he with he | ⟨h2, he⟩
    · omega
    · exact he (by rw [hc _ (by omega) (by omega), hc _ (by omega) (by omega)])

/-- A maximum is after the minimum it comes from. -/
theorem max_after {a : List α} {p m q : Nat} (hm : IsMin a p m) (hq : IsMax a m q) (hl : m + 1 < a.length) (he : EndsMoving a) : m < q := by
  obtain ⟨hpm, x, hx, hmin, -⟩ := hm
  obtain ⟨hmq, y, hy, hmax, -⟩ := hq
  rcases Nat.lt_or_ge m q with h | h
  · exact h
  · exfalso
    have : q = m := by omega
    subst this
    rw [hx, Option.some.injEq] at hy
    subst hy
    have hc : ∀ j, q ≤ j → j < a.length → a[j]? = some x := by
      intro j hj hlt
      have e := List.getElem?_eq_getElem hlt
      rw [e]
      exact congrArg some (le_antisymm (hmax j _ hj e) (hmin j _ (by omega) e))
    rcases he with he | ⟨h2, he⟩
    · omega
    · exact he (by rw [hc _ (by omega) (by omega), hc _ (by omega) (by omega)])

/-- The two lists: each peak is the first of the largest values from the minimum before, each minimum the first of the smallest values from the peak before, and
the last of them is the last value. -/
inductive Alternate (a : List α) : Nat → List Nat → List Nat → Prop
  | peak (p : Nat) : p + 1 = a.length → Alternate a p [] []
  | min {p m : Nat} : IsMin a p m → p < m → m + 1 = a.length → Alternate a p [] [m]
  | cons {p m q : Nat} {peaks mins : List Nat} : IsMin a p m → p < m → IsMax a m q → m < q → Alternate a q peaks mins → Alternate a p (q :: peaks) (m :: mins)

theorem loop_ok {a : List α} (he : EndsMoving a) : ∀ (fuel p s : Nat) (peaks mins : List Nat), IsMax a s p → a.length < fuel + p →
    ∃ peaks' mins', loop a fuel p peaks mins = .ok (peaks ++ peaks', mins ++ mins') ∧ Alternate a p peaks' mins' := by
  intro fuel
  induction fuel with
  | zero =>
    intro p s peaks mins hp hf
    have := hp.lt
    omega
  | succ fuel ih =>
    intro p s peaks mins hp hf
    unfold loop
    by_cases hl : p + 1 < a.length
    · obtain ⟨i, hi, hmin⟩ := argmin_ok a hp.lt
      have hpm := min_after hp hmin hl he
      rw [if_pos hl, hi, ok_bind]
      by_cases hlast : p + i + 1 = a.length
      · rw [if_pos hlast]
        exact ⟨[], [p + i], by rw [List.append_nil], .min hmin hpm hlast⟩
      · obtain ⟨j, hj, hmax⟩ := argmax_ok a hmin.lt
        have hmq := max_after hmin hmax (by have := hmin.lt; omega) he
        rw [if_neg hlast, hj, ok_bind]
        obtain ⟨peaks', mins', h1, h2⟩ := ih (p + i + j) (p + i) (peaks ++ [p + i + j]) (mins ++ [p + i]) hmax (by omega)
        refine ⟨(p + i + j) :: peaks', (p + i) :: mins', ?_, .cons hmin hpm hmax hmq h2⟩
        rw [h1, List.append_assoc, List.append_assoc]
        rfl
    · rw [if_neg hl]
      refine ⟨[], [], by rw [List.append_nil, List.append_nil], .peak p ?_⟩
      have := hp.lt
      omega

/-- What the lists of peaks and minima say about the values: see `C174_peaks_partial`. -/
theorem alternate_facts {a : List α} {p : Nat} {peaks mins : List Nat} (h : Alternate a p peaks mins) : ∀ s, IsMax a s p →
    ((p :: peaks).length = mins.length ∨ (p :: peaks).length = mins.length + 1)
    ∧ (∀ k u m : Nat, (p :: peaks)[k]? = some u → mins[k]? = some m → u < m ∧ IsMin a u m)
    ∧ (∀ k m u : Nat, mins[k]? = some m → (p :: peaks)[k + 1]? = some u → m < u ∧ IsMax a m u)
    ∧ ((∃ u, (p :: peaks).getLast? = some u ∧ u + 1 = a.length) ∨ ∃ m, mins.getLast? = some m ∧ m + 1 = a.length) := by
  induction h with
  | peak p hp => 
    intro s _
    refine ⟨.inr rfl, by simp, by simp, .inl ⟨p, rfl, hp⟩⟩
  | @min p m hm hpm hl =>
    intro s _
    refine ⟨.inl rfl, ?_, ?_, .inr ⟨m, rfl, hl⟩⟩
    · intro k u m' hk hm'
      cases k with
      | zero =>
        simp only [List.getElem?_cons_zero, Option.some.injEq] at hk hm'
        subst hk
        subst hm'
        exact ⟨hpm, hm⟩
      | succ k => simp at hm'
    · intro k m' u hk hu
      simp at hu
  | @cons p m q peaks mins hm hpm hq hmq _ ih =>
    intro s _
    obtain ⟨h1, h2, h3, h4⟩ := ih m hq
    refine ⟨?_, ?_, ?_, ?_⟩
    · clear h4
      simp only [List.length_cons] at h1 ⊢
      omega
    · intro k u m' hk hm'
      cases k with
      | zero =>
        simp only [List.getElem?_cons_zero, Option.some.injEq] at hk hm'
        subst hk
        subst hm'
        exact ⟨hpm, hm⟩
      | succ k =>
        rw [List.getElem?_cons_succ] at hk hm'
        exact h2 k u m' hk hm'
    · intro k m' u hk hu
      cases k with
      | zero =>
        simp only [List.getElem?_cons_zero, List.getElem?_cons_succ, Option.some.injEq] at hk hu
        subst hk
        subst hu
        exact ⟨hmq, hq⟩
      | succ k =>
        rw [List.getElem?_cons_succ] at hk hu
        exact h3 k m' u hk hu
    · rcases h4 with ⟨u, hu, hl⟩ | ⟨u, hu, hl⟩
      · exact .inl ⟨u, by rw [List.getLast?_cons_cons]; exact hu, hl⟩
      · refine .inr ⟨u, ?_, hl⟩
        cases mins with
        | nil => simp at hu
        | cons c mins => rw [List.getLast?_cons_cons]; exact hu

/-- C174. When the two last values are different, `find_peak_mins` ends. The peaks and the minima alternate: the first peak is the largest of all the values, each
minimum is the smallest value after its peak, each other peak is the largest value after the minimum before it, each time the first of equal values, and the list
ends with the last value. -/
theorem C174_peaks_partial {a : List α} (he : EndsMoving a) (fuel : Nat) (hf : a.length < fuel) :
    ∃ peaks mins, findPeakMins fuel a = .ok (peaks, mins)
      ∧ (peaks.length = mins.length ∨ peaks.length = mins.length + 1) ∧ (∃ p, peaks[0]? = some p ∧ IsMax a 0 p)
      ∧ (∀ k u m : Nat, peaks[k]? = some u → mins[k]? = some m → u < m ∧ IsMin a u m)
      ∧ (∀ k m u : Nat, mins[k]? = some m → peaks[k + 1]? = some u → m < u ∧ IsMax a m u)
      ∧ ((∃ u, peaks.getLast? = some u ∧ u + 1 = a.length) ∨ ∃ m, mins.getLast? = some m ∧ m + 1 = a.length) := by
  have hlen : 0 < a.length := by rcases he with h | h <;> omega
  obtain ⟨p, hp, hmax⟩ := argmax_ok a hlen
  rw [List.drop_zero] at hp
  rw [Nat.zero_add] at hmax
  obtain ⟨peaks, mins, h1, h2⟩ := loop_ok he fuel p 0 [p] [] hmax (by omega)
  obtain ⟨k1, k2, k3, k4⟩ := alternate_facts h2 0 hmax
  refine ⟨p :: peaks, mins, ?_, k1, ⟨p, rfl, hmax⟩, k2, k3, k4⟩
  unfold findPeakMins
  rw [hp, ok_bind, h1]
  rfl

example : EndsMoving [3, 5, 2, 4, 3] := .inr ⟨by decide, by decide⟩

example : findPeakMins 6 [3, 5, 2, 4, 3] = .ok ([1, 3], [2, 4]) := by decide +kernel

/-- C174: the intensities of the peaks do not increase, and those of the minima do not decrease. -/
theorem C174_decreasing {a : List α} (he : EndsMoving a) (fuel : Nat) (hf : a.length < fuel) :
    ∃ peaks mins, findPeakMins fuel a = .ok (peaks, mins)
      ∧ (∀ (k u v : Nat) (x y : α), peaks[k]? = some u → peaks[k + 1]? = some v → a[u]? = some x → a[v]? = some y → y ≤ x)
      ∧ ∀ (k u v : Nat) (x y : α), mins[k]? = some u → mins[k + 1]? = some v → a[u]? = some x → a[v]? = some y → x ≤ y := by
  obtain ⟨peaks, mins, h1, h2, ⟨p, hp0, hp⟩, h4, h5, -⟩ := C174_peaks_partial he fuel hf
  refine ⟨peaks, mins, h1, ?_, ?_⟩
  · intro k u v x y hu hv hx hy
    have hk : k < mins.length := by
      have := (List.getElem?_eq_some_iff.1 hv).1
      omega
    have hm := List.getElem?_eq_getElem hk
    obtain ⟨c1, -⟩ := h4 k u _ hu hm
    obtain ⟨c2, -⟩ := h5 k _ v hm hv
    have hmax : ∃ s, IsMax a s u := by
      cases k with
      | zero =>
        rw [hp0, Option.some.injEq] at hu
        exact ⟨0, hu ▸ hp⟩
      | succ k =>
        have hk' : k < mins.length := by omega
        exact ⟨_, (h5 k _ u (List.getElem?_eq_getElem hk') hu).2⟩
    obtain ⟨s, hs, z, hz, hmaxz, -⟩ := hmax
    rw [hx, Option.some.injEq] at hz
    subst hz
    exact hmaxz v y (by omega) hy
  · intro k u v x y hu hv hx hy
    have hk : k + 1 < peaks.length := by
      have := (List.getElem?_eq_some_iff.1 hv).1
      omega
    have hk0 : k < peaks.length := by omega
    obtain ⟨c0, -, z, hz, hmin, -⟩ := h4 k _ u (List.getElem?_eq_getElem hk0) hu
    obtain ⟨c1, -⟩ := h5 k u _ hu (List.getElem?_eq_getElem hk)
    obtain ⟨c2, -⟩ := h4 (k + 1) _ v (List.getElem?_eq_getElem hk) hv
    rw [hx, Option.some.injEq] at hz
    subst hz
    exact hmin v y (by omega) hy

/-- C174 fails when the two last values are equal, as in a radial distribution that ends with zeros: the loop never ends. -/
theorem C174_flat_counterexample {a : List α} (h2 : 2 ≤ a.length) (he : a[a.length - 1]? = a[a.length - 2]?) (fuel : Nat) :
    findPeakMins fuel a = .error .diverge := by
  have notlast : ∀ {s i}, s + 1 < a.length → (IsMax a s i ∨ IsMin a s i) → i + 1 < a.length := by
    intro s i hs h
    have hlt : i < a.length := by rcases h with h | h <;> exact h.lt
    by_contra hn
    have hi : i = a.length - 1 := by omega
    have e := List.getElem?_eq_getElem (by omega : a.length - 2 < a.length)
    rcases h with ⟨-, x, hx, -, hfirst⟩ | ⟨-, x, hx, -, hfirst⟩
    · have := hfirst (a.length - 2) _ (by omega) (by omega) e
      rw [hi, he, e, Option.some.injEq] at hx
      exact absurd hx (ne_of_lt this)
    · have := hfirst (a.length - 2) _ (by omega) (by omega) e
      rw [hi, he, e, Option.some.injEq] at hx
      exact absurd hx.symm (ne_of_lt this)
  have key : ∀ (fuel p : Nat) (peaks mins : List Nat), p + 1 < a.length → loop a fuel p peaks mins = .error .diverge := by
    intro fuel
    induction fuel with
    | zero => intro p peaks mins _; rfl
    | succ fuel ih =>
      intro p peaks mins hp
      unfold loop
      obtain ⟨i, hi, hmin⟩ := argmin_ok a (by omega : p < a.length)
      have h1 := notlast hp (.inr hmin)
      obtain ⟨j, hj, hmax⟩ := argmax_ok a hmin.lt
      have h3 := notlast h1 (.inl hmax)
      rw [if_pos hp, hi, ok_bind, if_neg (by omega), hj, ok_bind]
      exact ih _ _ _ h3
  obtain ⟨p, hp, hmax⟩ := argmax_ok a (by omega : 0 < a.length)
  rw [List.drop_zero] at hp
  rw [Nat.zero_add] at hmax
  unfold findPeakMins
  rw [hp, ok_bind]
  exact key fuel p [p] [] (notlast (by omega) (.inl hmax))

example : 2 ≤ [1, 3, 0, 0].length ∧ [1, 3, 0, 0][[1, 3, 0, 0].length - 1]? = [1, 3, 0, 0][[1, 3, 0, 0].length - 2]? := by decide

/-- C174. An array without values is refused. -/
theorem C174_empty (fuel : Nat) : findPeakMins fuel ([] : List α) = .error .invalidArgument := rfl

end Peak
end Py
end Colloids
