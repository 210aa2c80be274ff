import Mathlib.Algebra.BigOperators.Group.Finset.Piecewise
import Mathlib.Algebra.BigOperators.Intervals
import Verif.Py.PeriodicProps
import Verif.Py.LinkerAdd
import Verif.Py.StatModel
import Verif.Mains.G6Props

/-! # Averages over intervals of time, in python (C150) -/

namespace Colloids
namespace Py
namespace Average
open Linker (get_mapRange replicate_map get_mapModify)
open Periodic Stat

/-- A loop whose every step adds something to every cell. -/
theorem fold_contrib {M κ : Type} [AddCommMonoid M] (n : Nat) (step : List M → κ → R (List M)) (c : κ → Nat → M) (ks : List κ)
    (h : ∀ k ∈ ks, ∀ g : Nat → M, step ((List.range n).map g) k = .ok ((List.range n).map fun j => g j + c k j)) :
    ∀ g : Nat → M, ks.foldlM step ((List.range n).map g) = .ok ((List.range n).map fun j => g j + (ks.map fun k => c k j).sum) := by
  induction ks with
  | nil => intro g; simp
  | cons k ks ih =>
    intro g
    rw [List.foldlM_cons, h k (by simp) g]
    simp only [ok_bind]
    rw [ih (fun k' hk' => h k' (by simp [hk']))]
    congr 1
    apply List.map_congr_left
    intro j _
    rw [List.map_cons, List.sum_cons, add_assoc]

theorem upd_add {M : Type} [AddCommMonoid M] {n i : Nat} (hi : i < n) (g : Nat → M) (w : M) :
    upd ((List.range n).map g) i (· + w) = .ok ((List.range n).map fun j => g j + if i = j then w else 0) := by
  unfold upd
  rw [if_pos (by simpa using hi), get_mapModify]
  congr 1
  apply List.map_congr_left
  intro j _
  by_cases h : j = i
  · subst h; simp
  · simp [h, Ne.symm h]

theorem idx_some {α : Type} {l : List α} {i : Nat} {a : α} (h : l[i]? = some a) : idx l i = .ok a := by
  unfold idx; rw [h]

theorem addTerm_eq {G F : Type} [Field G] {sq : F → F → R G} {A : List F} {s : Nat → Nat → G}
    (hs : ∀ (i j : Nat) (a b : F), A[i]? = some a → A[j]? = some b → sq a b = .ok (s i j)) {n t0 dt : Nat} (h1 : t0 + 1 + dt < A.length)
    (h2 : dt + 1 < n) (g : Nat → G) : addTerm sq A t0 ((List.range n).map g) dt =
      .ok ((List.range n).map fun j => g j + if dt + 1 = j then s t0 (t0 + j) else 0) := by
  unfold addTerm
  rw [idx_some (List.getElem?_eq_getElem (by omega : t0 < A.length)), idx_some (List.getElem?_eq_getElem h1)]
  simp only [ok_bind]
  rw [hs t0 (t0 + 1 + dt) _ _ (List.getElem?_eq_getElem (by omega)) (List.getElem?_eq_getElem h1)]
  simp only [ok_bind]
  rw [upd_add h2]
  congr 1
  apply List.map_congr_left
  intro j _
  by_cases h : dt + 1 = j
  · rw [if_pos h, if_pos h]
    rw [← h, show t0 + (dt + 1) = t0 + 1 + dt by omega]
  · rw [if_neg h, if_neg h]

theorem sum_shift {M : Type} [AddCommMonoid M] (m j : Nat) (w : M) :
    ((List.range m).map fun dt => if dt + 1 = j then w else 0).sum = if 0 < j ∧ j ≤ m then w else 0 := by
  rw [Mains.list_sum_range]
  cases j with
  | zero => simp
  | succ j =>
    simp only [Nat.add_right_cancel_iff, Finset.sum_ite_eq', Finset.mem_range]
    congr 1
    simp only [eq_iff_iff]
    omega

theorem sum_until {M : Type} [AddCommMonoid M] (T j : Nat) (hj : 0 < j) (w : Nat → M) :
    ((List.range T).map fun t0 => if 0 < j ∧ j ≤ T - (t0 + 1) then w t0 else 0).sum = ∑ t0 ∈ Finset.range (T - j), w t0 := by
  rw [Mains.list_sum_range, ← Finset.sum_filter]
  apply Finset.sum_congr _ fun _ _ => rfl
  ext t
  simp only [Finset.mem_filter, Finset.mem_range]
  omega

theorem div_fold {G : Type} [Field G] (n m : Nat) (hm : m ≤ n) (q : Nat → G) (g : Nat → G) :
    (List.range m).foldlM (fun c dt => upd c dt (· / q dt)) ((List.range n).map g) =
      .ok ((List.range n).map fun j => if j < m then g j / q j else g j) := by
  induction m with
  | zero => simp
  | succ m ih =>
    rw [List.range_succ, List.foldlM_append, ih (by omega)]
    simp only [ok_bind, List.foldlM_cons, List.foldlM_nil, bind_pure]
    unfold upd
    rw [if_pos (by simpa using hm), get_mapModify]
    congr 1
    apply List.map_congr_left
    intro j _
    by_cases h : j = m
    · subst h; simp
    · rw [if_neg h]
      by_cases h2 : j < m
      · rw [if_pos h2, if_pos (by omega)]
      · rw [if_neg h2, if_neg (by omega)]

/-- C150. With `av = 0`, `msd` is at every lag the mean over the particles and over all the intervals with this lag. It is 0 at lag 0. -/
theorem C150_all_intervals {G F : Type} [Field G] [CharZero G] {sq : F → F → R G} (N : Nat) (_hN : 0 < N) (A : List F) (s : Nat → Nat → G)
    (hs : ∀ (i j : Nat) (a b : F), A[i]? = some a → A[j]? = some b → sq a b = .ok (s i j)) :
    ∃ m, msd sq N A 0 = .ok m ∧ m[0]? = some 0 ∧
      ∀ k, 0 < k → k < A.length → m[k]? = some ((∑ t0 ∈ Finset.range (A.length - k), s t0 (t0 + k)) / ((N : G) * ((A.length - k : Nat) : G))) := by
  have hin : ∀ t0 ∈ List.range A.length, ∀ g : Nat → G,
      (List.range (A.length - (t0 + 1))).foldlM (addTerm sq A t0) ((List.range (A.length + 1)).map g) =
      .ok ((List.range (A.length + 1)).map fun j => g j + if 0 < j ∧ j ≤ A.length - (t0 + 1) then s t0 (t0 + j) else 0) := by
    intro t0 ht g
    rw [List.mem_range] at ht
    rw [fold_contrib (A.length + 1) (addTerm sq A t0) (fun dt j => if dt + 1 = j then s t0 (t0 + j) else 0) _ (by
      intro dt hdt g
      rw [List.mem_range] at hdt
      exact addTerm_eq hs (by omega) (by omega) g)]
    congr 1
    apply List.map_congr_left
    intro j _
    rw [sum_shift]
  have hout := fold_contrib (A.length + 1) (fun m t0 => (List.range (A.length - (t0 + 1))).foldlM (addTerm sq A t0) m)
    (fun t0 j => if 0 < j ∧ j ≤ A.length - (t0 + 1) then s t0 (t0 + j) else 0) (List.range A.length) hin fun _ => 0
  unfold msd
  rw [if_neg (by omega), if_pos rfl, replicate_map, hout]
  simp only [ok_bind, List.map_map, Function.comp_def]
  rw [div_fold _ _ (by omega)]
  refine ⟨_, rfl, ?_, ?_⟩
  · rw [get_mapRange, if_pos (by omega)]
    simp
  · intro k h1 h2
    rw [get_mapRange, if_pos (by omega), if_pos h2, zero_add, sum_until _ _ h1 (fun t0 => s t0 (t0 + k)), div_div]

example : ∃ (sq : ℚ → ℚ → R ℚ) (s : Nat → Nat → ℚ), ∀ (i j : Nat) (a b : ℚ), [1, 4, 9][i]? = some a → [1, 4, 9][j]? = some b →
    sq a b = .ok (s i j) :=
  ⟨fun a b => .ok ((b - a) ^ 2), fun i j => (([1, 4, 9] : List ℚ).getD j 0 - ([1, 4, 9] : List ℚ).getD i 0) ^ 2, by
    intro i j a b ha hb
    simp only [List.getD_eq_getElem?_getD, ha, hb, Option.getD_some]⟩

/-- C150. With `av` origins of time, `msd` is at every lag the mean over the particles and over the `av` first intervals, and it is
given for all the lags that have `av` intervals. -/
theorem C150_window {G F : Type} [Field G] [CharZero G] {sq : F → F → R G} (N : Nat) (_hN : 0 < N) (A : List F) (s : Nat → Nat → G) (av : Nat) (hav : 0 < av)
    (hT : av ≤ A.length)
    (hs : ∀ (i j : Nat) (a b : F), A[i]? = some a → A[j]? = some b → sq a b = .ok (s i j)) :
    ∃ m, msd sq N A av = .ok m ∧ m.length = A.length - av + 1 ∧ m[0]? = some 0 ∧
      ∀ k, 0 < k → k ≤ A.length - av → m[k]? = some ((∑ t0 ∈ Finset.range av, s t0 (t0 + k)) / ((av : G) * (N : G))) := by
  have hin : ∀ t0 ∈ List.range (min av A.length), ∀ g : Nat → G,
      (List.range (A.length - av)).foldlM (addTerm sq A t0) ((List.range (A.length + 1 - av)).map g) =
      .ok ((List.range (A.length + 1 - av)).map fun j => g j + if 0 < j ∧ j ≤ A.length - av then s t0 (t0 + j) else 0) := by
    intro t0 ht g
    rw [List.mem_range] at ht
    rw [fold_contrib (A.length + 1 - av) (addTerm sq A t0) (fun dt j => if dt + 1 = j then s t0 (t0 + j) else 0) _ (by
      intro dt hdt g
      rw [List.mem_range] at hdt
      exact addTerm_eq hs (by omega) (by omega) g)]
    congr 1
    apply List.map_congr_left
    intro j _
    rw [sum_shift]
  have hout := fold_contrib (A.length + 1 - av) (fun m t0 => (List.range (A.length - av)).foldlM (addTerm sq A t0) m)
    (fun t0 j => if 0 < j ∧ j ≤ A.length - av then s t0 (t0 + j) else 0) (List.range (min av A.length)) hin fun _ => 0
  unfold msd
  rw [if_neg (by omega), if_neg (by omega), replicate_map, hout]
  simp only [ok_bind, pure_eq_ok, List.map_map, Function.comp_def]
  refine ⟨_, rfl, by simp; omega, ?_, ?_⟩
  · rw [get_mapRange, if_pos (by omega)]
    simp
  · intro k h1 h2
    rw [get_mapRange, if_pos (by omega), zero_add, min_eq_left hT, Mains.list_sum_range]
    have : ∀ t0 ∈ Finset.range av, (if 0 < k ∧ k ≤ A.length - av then s t0 (t0 + k) else 0) = s t0 (t0 + k) :=
      fun t0 _ => if_pos ⟨h1, h2⟩
    rw [Finset.sum_congr rfl this, Nat.cast_mul]

example : 0 < 5 ∧ 0 < 2 ∧ 2 ≤ [1, 4, 9].length := by decide

/-- C150, the part that is false. With `av = 0` there is a lag too many, that no interval has: the last value is always 0. -/
theorem C150_extra_counterexample {G F : Type} [Field G] [CharZero G] {sq : F → F → R G} (N : Nat) (_hN : 0 < N) (A : List F) (s : Nat → Nat → G)
    (hs : ∀ (i j : Nat) (a b : F), A[i]? = some a → A[j]? = some b → sq a b = .ok (s i j)) :
    ∃ m, msd sq N A 0 = .ok m ∧ m.length = A.length + 1 ∧ m[A.length]? = some 0 := by
  have hin : ∀ t0 ∈ List.range A.length, ∀ g : Nat → G,
      (List.range (A.length - (t0 + 1))).foldlM (addTerm sq A t0) ((List.range (A.length + 1)).map g) =
      .ok ((List.range (A.length + 1)).map fun j => g j + if 0 < j ∧ j ≤ A.length - (t0 + 1) then s t0 (t0 + j) else 0) := by
    intro t0 ht g
    rw [List.mem_range] at ht
    rw [fold_contrib (A.length + 1) (addTerm sq A t0) (fun dt j => if dt + 1 = j then s t0 (t0 + j) else 0) _ (by
      intro dt hdt g
      rw [List.mem_range] at hdt
      exact addTerm_eq hs (by omega) (by omega) g)]
    congr 1
    apply List.map_congr_left
    intro j _
    rw [sum_shift]
  have hout := fold_contrib (A.length + 1) (fun m t0 => (List.range (A.length - (t0 + 1))).foldlM (addTerm sq A t0) m)
    (fun t0 j => if 0 < j ∧ j ≤ A.length - (t0 + 1) then s t0 (t0 + j) else 0) (List.range A.length) hin fun _ => 0
  unfold msd
  rw [if_neg (by omega), if_pos rfl, replicate_map, hout]
  simp only [ok_bind, List.map_map, Function.comp_def]
  rw [div_fold _ _ (by omega)]
  refine ⟨_, rfl, by simp, ?_⟩
  rw [get_mapRange, if_pos (by omega), if_neg (by omega)]
  by_cases h : A.length = 0
  · rw [h]; simp
  · rw [sum_until _ _ (by omega) (fun t0 => s t0 (t0 + A.length))]
    simp

/-- The steps of `overlap`. -/
theorem near_step {F : Type} {near : F → F → R Nat} {pos : List F} {c : Nat → Nat → Nat}
    (hc : ∀ (i j : Nat) (a b : F), pos[i]? = some a → pos[j]? = some b → near a b = .ok (c i j)) {n t0 t1 k : Nat} (h1 : t1 < pos.length)
    (h0 : t0 < pos.length) (hk : k < n) (ht : t1 = t0 + k) (g : Nat → Nat) :
    (do
        let a ← idx pos t0
        let b ← idx pos t1
        let s ← near a b
        upd ((List.range n).map g) k (· + s)) =
      (.ok ((List.range n).map fun j => g j + if k = j then c t0 (t0 + j) else 0) : R (List Nat)) := by
  rw [idx_some (List.getElem?_eq_getElem h0), idx_some (List.getElem?_eq_getElem h1)]
  simp only [ok_bind]
  rw [hc t0 t1 _ _ (List.getElem?_eq_getElem h0) (List.getElem?_eq_getElem h1)]
  simp only [ok_bind]
  rw [upd_add hk]
  congr 1
  apply List.map_congr_left
  intro j _
  by_cases h : k = j
  · subst h; rw [if_pos rfl, if_pos rfl, ht]
  · rw [if_neg h, if_neg h]

theorem sum_from {M : Type} [AddCommMonoid M] (a m j : Nat) (w : M) :
    ((List.range' a m).map fun k => if k = j then w else 0).sum = if a ≤ j ∧ j < a + m then w else 0 := by
  rw [List.range'_eq_map_range, List.map_map, Mains.list_sum_range]
  simp only [Function.comp_def]
  by_cases h : a ≤ j ∧ j < a + m
  · rw [if_pos h, Finset.sum_eq_single (j - a)]
    · rw [if_pos (by omega)]
    · intro b _ hb; rw [if_neg (by omega)]
    · intro hb; exact absurd (Finset.mem_range.2 (by omega)) hb
  · rw [if_neg h]
    apply Finset.sum_eq_zero
    intro b hb
    rw [Finset.mem_range] at hb
    rw [if_neg (by omega)]

theorem overlap_window {F : Type} {near : F → F → R Nat} (N : Nat) (pos : List F) (c : Nat → Nat → Nat) (av : Nat) (hav : 0 < av)
    (hT : av ≤ pos.length) (hc : ∀ (i j : Nat) (a b : F), pos[i]? = some a → pos[j]? = some b → near a b = .ok (c i j)) :
    overlap near N pos av = .ok ((List.range (pos.length + 1 - av)).map fun j => if j = 0 then av * N else
      if j + 1 ≤ pos.length - av then ∑ t0 ∈ Finset.range av, c t0 (t0 + j) else 0,
      (List.range (pos.length + 1 - av)).map fun _ => av * N) := by
  have e : pos.length - (pos.length + 1 - av) + 1 = av := by omega
  have hin : ∀ t0 ∈ List.range av, ∀ g : Nat → Nat,
      (List.range' 1 (pos.length - av - 1)).foldlM (fun o dt => do
        let a ← idx pos t0
        let b ← idx pos (t0 + dt)
        let s ← near a b
        upd o dt (· + s)) ((List.range (pos.length + 1 - av)).map g) =
      .ok ((List.range (pos.length + 1 - av)).map fun j => g j + if 1 ≤ j ∧ j < 1 + (pos.length - av - 1) then c t0 (t0 + j) else 0) := by
    intro t0 ht g
    rw [List.mem_range] at ht
    rw [fold_contrib (pos.length + 1 - av) _ (fun dt j => if dt = j then c t0 (t0 + j) else 0) _ (by
      intro dt hdt g
      rw [List.mem_range'_1] at hdt
      exact near_step hc (by omega) (by omega) (by omega) rfl g)]
    congr 1
    apply List.map_congr_left
    intro j _
    rw [sum_from]
  unfold overlap
  rw [if_neg (by omega), if_neg (by omega), replicate_map, e, fold_contrib _ _ _ _ hin]
  simp only [ok_bind]
  unfold upd
  rw [if_pos (by simp; omega), get_mapModify]
  simp only [ok_bind, pure_eq_ok]
  congr 2
  · apply List.map_congr_left
    intro j _
    by_cases h : j = 0
    · rw [if_pos h, if_pos h]
    · rw [if_neg h, if_neg h, zero_add, Mains.list_sum_range]
      by_cases h2 : j + 1 ≤ pos.length - av
      · rw [if_pos h2]
        exact Finset.sum_congr rfl fun t0 _ => if_pos ⟨by omega, by omega⟩
      · rw [if_neg h2]
        exact Finset.sum_eq_zero fun t0 _ => if_neg (by omega)
  · rw [replicate_map, List.map_map]
    simp only [List.length_map, List.length_range]
    apply List.map_congr_left
    intro j _
    simp

/-- C150. With `av` origins of time, `overlap` counts at every lag but the last the particles that are still near, out of `av` times the
number of particles. -/
theorem C150_overlap_partial {F : Type} {near : F → F → R Nat} (N : Nat) (pos : List F) (c : Nat → Nat → Nat) (av : Nat) (hav : 0 < av)
    (hT : av ≤ pos.length) (hc : ∀ (i j : Nat) (a b : F), pos[i]? = some a → pos[j]? = some b → near a b = .ok (c i j)) :
    ∃ o total, overlap near N pos av = .ok (o, total) ∧ o[0]? = some (av * N) ∧ o.length = pos.length - av + 1 ∧ total.length = o.length ∧
      (∀ k < pos.length - av + 1, total[k]? = some (av * N)) ∧
      ∀ k, 0 < k → k < pos.length - av → o[k]? = some (∑ t0 ∈ Finset.range av, c t0 (t0 + k)) := by
  refine ⟨_, _, overlap_window N pos c av hav hT hc, ?_, by simp; omega, by simp, ?_, ?_⟩
  · rw [get_mapRange, if_pos (by omega), if_pos rfl]
  · intro k hk; rw [get_mapRange, if_pos (by omega)]
  · intro k h1 h2
    rw [get_mapRange, if_pos (by omega), if_neg (by omega), if_pos (by omega)]

example : 0 < 2 ∧ 2 ≤ [0, 0, 0, 7].length ∧ ∀ (i j : Nat) (a b : Nat), [0, 0, 0, 7][i]? = some a → [0, 0, 0, 7][j]? = some b →
    (fun a b : Nat => (.ok (if a = b then 1 else 0) : R Nat)) a b =
      .ok ((fun i j : Nat => if [0, 0, 0, 7].getD i 0 = [0, 0, 0, 7].getD j 0 then 1 else 0) i j) := by
  refine ⟨by decide, by decide, ?_⟩
  intro i j a b ha hb
  simp only [List.getD_eq_getElem?_getD, ha, hb, Option.getD_some]

/-- C150, the part that is false. The last lag is never counted: the overlap is 0 there though the total is announced, even if no particle
ever moves. -/
theorem C150_last_lag_counterexample {F : Type} {near : F → F → R Nat} (N : Nat) (pos : List F) (c : Nat → Nat → Nat) (av : Nat) (hav : 0 < av)
    (hT : av < pos.length) (hc : ∀ (i j : Nat) (a b : F), pos[i]? = some a → pos[j]? = some b → near a b = .ok (c i j)) :
    ∃ o total, overlap near N pos av = .ok (o, total) ∧ o[pos.length - av]? = some 0 ∧ total[pos.length - av]? = some (av * N) := by
  refine ⟨_, _, overlap_window N pos c av hav (by omega) hc, ?_, ?_⟩
  · rw [get_mapRange, if_pos (by omega), if_neg (by omega), if_neg (by omega)]
  · rw [get_mapRange, if_pos (by omega)]

/-- C150. With `av = 0`, `overlap` counts at every lag the particles that are still near over all the intervals; the totals are those of the
lags from 1 on. -/
theorem C150_overlap_all_partial {F : Type} {near : F → F → R Nat} (N : Nat) (pos : List F) (c : Nat → Nat → Nat) (hT : 0 < pos.length)
    (hc : ∀ (i j : Nat) (a b : F), pos[i]? = some a → pos[j]? = some b → near a b = .ok (c i j)) :
    ∃ o total, overlap near N pos 0 = .ok (o, total) ∧ o[0]? = some (pos.length * N) ∧ o.length = pos.length + 1 ∧
      total.length = pos.length - 1 ∧
      ∀ k, 0 < k → k < pos.length → o[k]? = some (∑ t0 ∈ Finset.range (pos.length - k), c t0 (t0 + k)) ∧
        total[k - 1]? = some ((pos.length - k) * N) := by
  have hin : ∀ t0 ∈ List.range (pos.length - 1), ∀ g : Nat → Nat,
      (List.range' (t0 + 1) (pos.length - (t0 + 1))).foldlM (fun o t1 => do
        let a ← idx pos t0
        let b ← idx pos t1
        let s ← near a b
        upd o (t1 - t0) (· + s)) ((List.range (pos.length + 1)).map g) =
      .ok ((List.range (pos.length + 1)).map fun j => g j + if 0 < j ∧ j ≤ pos.length - (t0 + 1) then c t0 (t0 + j) else 0) := by
    intro t0 ht g
    rw [List.mem_range] at ht
    rw [fold_contrib (pos.length + 1) _ (fun t1 j => if t1 = t0 + j then c t0 (t0 + j) else 0) _ (by
      intro t1 ht1 g
      rw [List.mem_range'_1] at ht1
      have := near_step hc (n := pos.length + 1) (t0 := t0) (t1 := t1) (k := t1 - t0) (by omega) (by omega) (by omega) (by omega) g
      rw [this]
      congr 1
      apply List.map_congr_left
      intro j _
      congr 1
      congr 1
      rw [eq_iff_iff]
      omega)]
    congr 1
    apply List.map_congr_left
    intro j _
    rw [sum_from]
    congr 1
    congr 1
    rw [eq_iff_iff]
    omega
  unfold overlap
  rw [if_neg (by omega), if_pos rfl, replicate_map, fold_contrib _ _ _ _ hin]
  simp only [ok_bind]
  unfold upd
  rw [if_pos (by simp), get_mapModify]
  simp only [ok_bind, pure_eq_ok]
  refine ⟨_, _, rfl, ?_, by simp, by simp, ?_⟩
  · rw [get_mapRange, if_pos (by omega), if_pos rfl]
  · intro k h1 h2
    constructor
    · rw [get_mapRange, if_pos (by omega), if_neg (by omega), zero_add, Mains.list_sum_range, ← Finset.sum_filter]
      congr 1
      apply Finset.sum_congr _ fun _ _ => rfl
      ext t
      simp only [Finset.mem_filter, Finset.mem_range]
      omega
    · rw [List.getElem?_map, List.getElem?_reverse (by simp; omega), List.getElem?_range' (by simp; omega)]
      simp only [List.length_range', Option.map_some, Option.some.injEq]
      congr 1
      omega

/-- C150, the part that is false. With `av = 0` the two arrays that `overlap` returns do not have the same length: they cannot be divided. -/
theorem C150_shape_counterexample {F : Type} {near : F → F → R Nat} (N : Nat) (pos : List F) (c : Nat → Nat → Nat) (hT : 0 < pos.length)
    (hc : ∀ (i j : Nat) (a b : F), pos[i]? = some a → pos[j]? = some b → near a b = .ok (c i j)) :
    ∃ o total, overlap near N pos 0 = .ok (o, total) ∧ o.length = total.length + 2 := by
  obtain ⟨o, total, h1, _, h3, h4, _⟩ := C150_overlap_all_partial N pos c hT hc
  exact ⟨o, total, h1, by omega⟩

example : 0 < [0, 0, 0, 7].length := by decide

end Average
end Py
end Colloids
