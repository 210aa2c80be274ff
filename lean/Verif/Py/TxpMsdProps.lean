import Verif.Py.TxpProps
import Verif.Py.AverageProps
import Verif.Py.CorrelProps

/-! # Mean square displacement of trajectories that span a window, in python -/

namespace Colloids
namespace Py
namespace Txp
open Linker (get_mapRange replicate_map get_mapModify)
open Average Periodic

theorem slice_get {α : Type} (l : List α) (a b i : Nat) : (Stat.slice l a (b : Int))[i]? = if a + i < b then l[a + i]? else none := by
  unfold Stat.slice
  rw [if_neg (by omega)]
  simp only [Int.toNat_natCast]
  rw [List.getElem?_drop, List.getElem?_take]

theorem slice_length {α : Type} (l : List α) (a b : Nat) : (Stat.slice l a (b : Int)).length = min b l.length - a := by
  unfold Stat.slice
  rw [if_neg (by omega)]
  simp only [Int.toNat_natCast]
  rw [List.length_drop, List.length_take]

/-- The sums of the loops when all the intervals are used. -/
theorem lagSums_all {F G : Type} [Field G] {sq : F → F → R G} {positions : List F} {s : Nat → Nat → G}
    (hs : ∀ (i j : Nat) (a b : F), positions[i]? = some a → positions[j]? = some b → sq a b = .ok (s i j)) {start stop : Nat} (h : start ≤ stop)
    (hle : stop ≤ positions.length) : lagSums sq positions start stop 0 = .ok ((List.range (stop - start)).map fun j =>
      if 0 < j then ∑ t0 ∈ Finset.range (stop - start - j), s (start + t0) (start + t0 + j) else 0) := by
  have hL : (Stat.slice positions start ((stop + 0 : Nat) : Int)).length = stop - start := by
    rw [slice_length]; omega
  have hsA : ∀ (i j : Nat) (a b : F), (Stat.slice positions start ((stop + 0 : Nat) : Int))[i]? = some a →
      (Stat.slice positions start ((stop + 0 : Nat) : Int))[j]? = some b → sq a b = .ok ((fun i j => s (start + i) (start + j)) i j) := by
    intro i j a b ha hb
    rw [slice_get] at ha hb
    split_ifs at ha hb
    exact hs _ _ a b ha hb
  unfold lagSums
  simp only
  rw [if_neg (by omega), if_pos trivial, hL, replicate_map]
  generalize hA : Stat.slice positions start ((stop + 0 : Nat) : Int) = A at hL hsA
  rw [fold_contrib (stop - start) _ (fun t0 j => if 0 < j ∧ j ≤ stop - start - (t0 + 1) then s (start + t0) (start + (t0 + j)) else 0) (List.range (stop - start))]
  · congr 1
    apply List.map_congr_left
    intro j hj
    by_cases h0 : 0 < j
    · rw [if_pos h0, sum_until _ _ h0 (fun t0 => s (start + t0) (start + (t0 + j))), zero_add]
      apply Finset.sum_congr rfl
      intro t0 _
      rw [Nat.add_assoc]
    · rw [if_neg h0]
      simp [h0]
  · intro t0 ht g
    rw [List.mem_range] at ht
    rw [List.length_drop, hL]
    rw [fold_contrib (stop - start) (addTerm sq A t0) (fun dt j => if dt + 1 = j then s (start + t0) (start + (t0 + j)) else 0) _ (by
      intro dt hdt g
      rw [List.mem_range] at hdt
      exact addTerm_eq hsA (by omega) (by omega) g)]
    congr 1
    apply List.map_congr_left
    intro j _
    rw [sum_shift]

/-- The sums of the loops when `av` intervals are used. The experiment may be too short. -/
theorem lagSums_av {F G : Type} [Field G] {sq : F → F → R G} {positions : List F} {s : Nat → Nat → G}
    (hs : ∀ (i j : Nat) (a b : F), positions[i]? = some a → positions[j]? = some b → sq a b = .ok (s i j)) {start stop av : Nat} (h : start ≤ stop)
    (hav : 0 < av) (hle : start + av ≤ positions.length) : lagSums sq positions start stop av = .ok ((List.range (stop - start)).map fun j =>
      if 0 < j ∧ start + j + av < min (stop + av) positions.length then ∑ t0 ∈ Finset.range av, s (start + t0) (start + t0 + j) else 0) := by
  have hL : (Stat.slice positions start ((stop + av : Nat) : Int)).length = min (stop + av) positions.length - start := by
    rw [slice_length]
  have hsA : ∀ (i j : Nat) (a b : F), (Stat.slice positions start ((stop + av : Nat) : Int))[i]? = some a →
      (Stat.slice positions start ((stop + av : Nat) : Int))[j]? = some b → sq a b = .ok ((fun i j => s (start + i) (start + j)) i j) := by
    intro i j a b ha hb
    rw [slice_get] at ha hb
    split_ifs at ha hb
    exact hs _ _ a b ha hb
  unfold lagSums
  simp only
  rw [if_neg (by omega), if_neg (by omega), replicate_map]
  generalize hA : Stat.slice positions start ((stop + av : Nat) : Int) = A at hL hsA
  have hlav : (A.take av).length = av := by rw [List.length_take, hL]; omega
  have hslice : ∀ t0 < av, (Stat.slice A (t0 + 1) ((t0 : Int) - av)).length = A.length - av - 1 := by
    intro t0 ht
    unfold Stat.slice
    rw [if_pos (by omega)]
    rw [List.length_drop, List.length_take]
    omega
  rw [hlav]
  rw [fold_contrib (stop - start) _ (fun t0 j => if 0 < j ∧ j ≤ A.length - av - 1 then s (start + t0) (start + (t0 + j)) else 0) (List.range av)]
  · congr 1
    apply List.map_congr_left
    intro j hj
    rw [Mains.list_sum_range, zero_add]
    by_cases h0 : 0 < j ∧ start + j + av < min (stop + av) positions.length
    · rw [if_pos h0]
      apply Finset.sum_congr rfl
      intro t0 _
      rw [if_pos (by omega), Nat.add_assoc]
    · rw [if_neg h0]
      apply Finset.sum_eq_zero
      intro t0 _
      rw [if_neg (by omega)]
  · intro t0 ht g
    rw [List.mem_range] at ht
    rw [hslice t0 ht]
    rw [fold_contrib (stop - start) (addTerm sq A t0) (fun dt j => if dt + 1 = j then s (start + t0) (start + (t0 + j)) else 0) _ (by
      intro dt hdt g
      rw [List.mem_range] at hdt
      exact addTerm_eq hsA (by omega) (by omega) g)]
    congr 1
    apply List.map_congr_left
    intro j _
    rw [sum_shift]

/-- C170. With `av = 0`, `Txp.msd` gives for each lag the mean over the particles and over all the intervals of this lag between `start`, included,
and `stop`, excluded, in square diameters. -/
theorem C170_all_intervals {F G : Type} [Field G] [CharZero G] {sq : F → F → R G} {positions : List F} {s : Nat → Nat → G}
    (hs : ∀ (i j : Nat) (a b : F), positions[i]? = some a → positions[j]? = some b → sq a b = .ok (s i j)) {start stop : Nat} (h : start ≤ stop)
    (hle : stop ≤ positions.length) (N : Nat) (radius : G) (_hN : 0 < N) (_hr : radius ≠ 0) :
    ∃ m, msd sq N radius positions start stop 0 = .ok m ∧ m.length = stop - start ∧ (start < stop → m[0]? = some 0)
      ∧ ∀ k, 0 < k → k < stop - start → m[k]? = some ((∑ t0 ∈ Finset.range (stop - start - k), s (start + t0) (start + t0 + k))
        / ((N : G) * (radius * 2) ^ 2 * ((stop - start - k : Nat) : G))) := by
  have hL : (Stat.slice positions start ((stop + 0 : Nat) : Int)).length = stop - start := by
    rw [slice_length]; omega
  unfold msd
  simp only
  rw [lagSums_all hs h hle, ok_bind, if_pos trivial, hL, List.map_map, Function.comp_def, div_fold _ _ (le_refl _)]
  refine ⟨_, rfl, by simp, ?_, ?_⟩
  · intro hlt
    rw [get_mapRange, if_pos (by omega), if_pos (by omega), if_neg (by omega), zero_div, zero_div]
  · intro k h1 h2
    rw [get_mapRange, if_pos (by omega), if_pos h2, if_pos h1, div_div]

/-- C170. With `av` origins of time, `Txp.msd` gives for each lag less than `stop - start` the mean over the particles and over the intervals of this
lag that begin at the `av` first times, in square diameters. -/
theorem C170_window {F G : Type} [Field G] [CharZero G] {sq : F → F → R G} {positions : List F} {s : Nat → Nat → G}
    (hs : ∀ (i j : Nat) (a b : F), positions[i]? = some a → positions[j]? = some b → sq a b = .ok (s i j)) {start stop av : Nat} (h : start ≤ stop)
    (hav : 0 < av) (hle : stop + av ≤ positions.length) (N : Nat) (radius : G) (_hN : 0 < N) (_hr : radius ≠ 0) :
    ∃ m, msd sq N radius positions start stop av = .ok m ∧ m.length = stop - start ∧ (start < stop → m[0]? = some 0)
      ∧ ∀ k, 0 < k → k < stop - start → m[k]? = some ((∑ t0 ∈ Finset.range av, s (start + t0) (start + t0 + k)) / ((av : G) * (N : G) * (radius * 2) ^ 2)) := by
  unfold msd
  simp only
  rw [lagSums_av hs h hav (by omega), ok_bind, if_neg (by omega), List.map_map, Function.comp_def]
  refine ⟨_, rfl, by simp, ?_, ?_⟩
  · intro hlt
    rw [get_mapRange, if_pos (by omega), if_neg (by omega), zero_div]
  · intro k h1 h2
    rw [get_mapRange, if_pos h2, if_pos (by omega)]

example : ∃ s : Nat → Nat → ℚ, ∀ (i j : Nat) (a b : ℚ), [1, 4, 9][i]? = some a → [1, 4, 9][j]? = some b → (.ok ((b - a) ^ 2) : R ℚ) = .ok (s i j) :=
  ⟨fun i j => (([1, 4, 9] : List ℚ).getD j 0 - ([1, 4, 9] : List ℚ).getD i 0) ^ 2, by
    intro i j a b ha hb
    simp only [List.getD_eq_getElem?_getD, ha, hb, Option.getD_some]⟩

theorem upd_length {G : Type} {l l' : List G} {i : Nat} {f : G → G} (h : upd l i f = .ok l') : l'.length = l.length := by
  unfold upd at h
  split_ifs at h
  cases h
  rw [List.length_modify]

theorem addTerm_length {F G : Type} [Field G] {sq : F → F → R G} {A : List F} {t0 dt : Nat} {m m' : List G} (h : addTerm sq A t0 m dt = .ok m') :
    m'.length = m.length := by
  unfold addTerm at h
  obtain ⟨_, _, h⟩ := bind_ok.1 h
  obtain ⟨_, _, h⟩ := bind_ok.1 h
  obtain ⟨_, _, h⟩ := bind_ok.1 h
  exact upd_length h

theorem lagSums_length {F G : Type} [Field G] {sq : F → F → R G} {positions : List F} {start stop av : Nat} {m : List G}
    (h : lagSums sq positions start stop av = .ok m) : m.length = stop - start := by
  unfold lagSums at h
  simp only at h
  split_ifs at h
  · exact Exp.fold_keeps (I := fun m : List G => m.length = stop - start) (fun m t0 m' hm h =>
      Exp.fold_keeps (I := fun m : List G => m.length = stop - start) (fun m dt m' hm h => by rw [addTerm_length h, hm]) _ hm h) _ (by simp) h
  · exact Exp.fold_keeps (I := fun m : List G => m.length = stop - start) (fun m t0 m' hm h =>
      Exp.fold_keeps (I := fun m : List G => m.length = stop - start) (fun m dt m' hm h => by rw [addTerm_length h, hm]) _ hm h) _ (by simp) h

/-- C170 fails for the last interval that the documentation promises: whatever the positions, the lag `stop - start` is never given. -/
theorem C170_last_counterexample {F G : Type} [Field G] {sq : F → F → R G} {positions : List F} {start stop av N : Nat} {radius : G} {m : List G}
    (h : msd sq N radius positions start stop av = .ok m) : m.length = stop - start ∧ m[stop - start]? = none := by
  have : m.length = stop - start := by
    unfold msd at h
    simp only at h
    obtain ⟨m', h1, h2⟩ := bind_ok.1 h
    have hl := lagSums_length h1
    split_ifs at h2
    · exact Exp.fold_keeps (I := fun m : List G => m.length = stop - start) (fun m dt m' hm h => by rw [upd_length h, hm]) _ (by simpa using hl) h2
    · cases h2
      simpa using hl
  exact ⟨this, List.getElem?_eq_none (by omega)⟩

/-- C170 fails when the experiment ends before `stop + av`: the lags that are missing are given as 0. -/
theorem C170_short_counterexample {F G : Type} [Field G] {sq : F → F → R G} {positions : List F} {s : Nat → Nat → G}
    (hs : ∀ (i j : Nat) (a b : F), positions[i]? = some a → positions[j]? = some b → sq a b = .ok (s i j)) {start stop av : Nat} (h : start ≤ stop)
    (hav : 0 < av) (hle : start + av ≤ positions.length) (N : Nat) (radius : G) :
    ∃ m, msd sq N radius positions start stop av = .ok m ∧ ∀ k < stop - start, positions.length ≤ start + av + k → m[k]? = some 0 := by
  unfold msd
  simp only
  rw [lagSums_av hs h hav hle, ok_bind, if_neg (by omega), List.map_map, Function.comp_def]
  refine ⟨_, rfl, ?_⟩
  intro k h1 h2
  rw [get_mapRange, if_pos h1, if_neg (by omega), zero_div]

/-- C170 fails for all the exports: `export_msd` has one time more than values, and always raises an exception. -/
theorem C170_export_counterexample {F G : Type} [Field G] (sq : F → F → R G) (N : Nat) (radius dt : G) (positions : List F) (start stop av : Nat) :
    ∃ e, exportMsd sq N radius dt positions start stop av = .error e := by
  unfold exportMsd
  cases h : msd sq N radius positions start stop av with
  | error e => exact ⟨e, rfl⟩
  | ok m =>
    rw [ok_bind]
    unfold columns
    rw [if_pos (by rw [(C170_last_counterexample h).1]; omega)]
    exact ⟨_, rfl⟩

theorem addFront_length {G : Type} [Add G] {c w c' : List G} {size : Nat} (h : Stat.addFront c w size = .ok c') : c'.length = c.length := by
  unfold Stat.addFront at h
  split_ifs at h with hw
  cases h
  rw [not_not] at hw
  rw [List.length_append, List.length_zipWith, hw, min_self, List.length_take, List.length_drop]
  omega

/-- C170 fails for all the exports of the self intermediate scattering function, that have more times than values: `export_self_isf` always raises an
exception. `tc` is the correlation of a window, that has as many values as the window has times. -/
theorem C170_export_isf_counterexample {F G : Type} [Field G] (tc : List F → R (List G)) (htc : ∀ l c, tc l = .ok c → c.length = l.length) (dt : G)
    (waves : List F) (start stop av : Nat) (hlt : start < stop) : ∃ e, exportSelfIsf tc dt waves start stop av = .error e := by
  unfold exportSelfIsf
  cases h : selfIsf tc waves start stop av with
  | error e => exact ⟨e, rfl⟩
  | ok m =>
    rw [ok_bind]
    unfold columns
    rw [if_pos]
    · exact ⟨_, rfl⟩
    · -- the length of the correlation
      unfold selfIsf at h
      have hb : (stop : Int) + av - 1 = ((stop + av - 1 : Nat) : Int) := by omega
      rw [hb] at h
      have hD := slice_length waves start (stop + av - 1)
      generalize Stat.slice waves start ((stop + av - 1 : Nat) : Int) = data at h hD
      unfold Stat.timeCorrelation at h
      split_ifs at h with h0
      · subst h0
        obtain ⟨c, h1, h2⟩ := bind_ok.1 h
        have hc : c.length = data.length :=
          Exp.fold_keeps (I := fun c : List G => c.length = data.length) (fun c t0 c' hc h => by
            obtain ⟨w, -, hw⟩ := bind_ok.1 h
            rw [addFront_length hw, hc]) _ (by simp) h1
        have hm : m.length = c.length :=
          Exp.fold_keeps (I := fun m : List G => m.length = c.length) (fun m dt m' hm h => by rw [upd_length h, hm]) _ rfl h2
        rw [hm, hc]
        omega
      · obtain ⟨ws, h1, h2⟩ := bind_ok.1 h
        obtain ⟨w0, h3, h4⟩ := bind_ok.1 h2
        split_ifs at h4 with hall
        cases h4
        rw [List.length_map, List.length_range]
        have hslice : ∀ t0 : Nat, t0 < av → (Stat.slice data t0 ((data.length : Int) + t0 - av)).length
            = (if (data.length : Int) + t0 - av < 0 then data.length + data.length + t0 - av else data.length + t0 - av) - t0 := by
          intro t0 ht0
          unfold Stat.slice
          rw [List.length_drop, List.length_take]
          split_ifs <;> omega
        have hw : ∀ t0 < av, (Stat.slice data t0 ((data.length : Int) + t0 - av)).length = w0.length := by
          intro t0 ht
          obtain ⟨w, e1, e2⟩ := Dyn.mapM_getElem? h1 (i := t0) (x := t0) (by simp [ht])
          rw [← htc _ _ e2]
          by_contra hne
          exact hall (List.any_eq_true.2 ⟨w, List.mem_of_getElem? e1, by simpa using hne⟩)
        have e0 := hw 0 (by omega)
        rw [hslice 0 (by omega)] at e0
        by_cases hle : av ≤ data.length
        · rw [if_neg (by omega)] at e0
          omega
        · by_cases hz : data.length = 0
          · rw [if_pos (by omega)] at e0
            omega
          · have e1 := hw (av - data.length) (by omega)
            rw [hslice _ (by omega), if_neg (by omega)] at e1
            omega

example : ∀ l c, (fun l : List ℚ => (.ok l : R (List ℚ))) l = .ok c → c.length = l.length := by
  intro l c h
  cases h
  rfl

/-- C170. With `av = 0` the non gaussian parameter at each lag is that of the displacements of all the particles during all the intervals of this lag
between `start`, included, and `stop`, excluded; it is given as -1 at lag 0. -/
theorem C170_nongaussian_all {F G : Type} [Field G] [CharZero G] {sq qu : F → F → R G} {positions : List F} {s q : Nat → Nat → G}
    (hs : ∀ (i j : Nat) (a b : F), positions[i]? = some a → positions[j]? = some b → sq a b = .ok (s i j))
    (hq : ∀ (i j : Nat) (a b : F), positions[i]? = some a → positions[j]? = some b → qu a b = .ok (q i j)) {start stop : Nat} (h : start < stop)
    (hle : stop ≤ positions.length) (N : Nat) (hN : 0 < N) :
    ∃ α, nonGaussian sq qu N positions start stop 0 = .ok α ∧ α.length = stop - start ∧ α[0]? = some (-1 : G)
      ∧ ∀ k (n m2 m4 : G), 0 < k → k < stop - start → n = ((stop - start - k : Nat) : G) * N →
        m2 = (∑ t0 ∈ Finset.range (stop - start - k), s (start + t0) (start + t0 + k)) / n →
        m4 = (∑ t0 ∈ Finset.range (stop - start - k), q (start + t0) (start + t0 + k)) / n → m2 ≠ 0 → α[k]? = some (3 * m4 / (5 * m2 ^ 2) - 1) := by
  unfold nonGaussian
  rw [lagSums_all hs h.le hle, ok_bind, lagSums_all hq h.le hle, ok_bind]
  simp only [if_pos]
  refine ⟨_, rfl, by simp, ?_, ?_⟩
  · have h0 : 0 < stop - start := by omega
    simp only [List.getElem?_map, List.getElem?_zipIdx, List.zip, List.getElem?_zipWith, List.getElem?_range h0, Option.map_some, if_neg (lt_irrefl 0)]
    simp
  · intro k n m2 m4 hk hlt hn h2 h4 hne
    have hn0 : n ≠ 0 := by
      rw [hn, ← Nat.cast_mul]
      have : 0 < (stop - start - k) * N := Nat.mul_pos (by omega) hN
      exact_mod_cast this.ne'
    simp only [List.getElem?_map, List.getElem?_zipIdx, List.zip, List.getElem?_zipWith, List.getElem?_range hlt, Option.map_some, List.length_map,
      List.length_range, Nat.zero_add, if_neg hk.ne', if_pos hk]
    congr 2
    rw [Nat.cast_mul, ← hn]
    have e2 : ∑ t0 ∈ Finset.range (stop - start - k), s (start + t0) (start + t0 + k) = m2 * n := by rw [h2]; field_simp
    have e4 : ∑ t0 ∈ Finset.range (stop - start - k), q (start + t0) (start + t0 + k) = m4 * n := by rw [h4]; field_simp
    rw [e2, e4]
    field_simp

/-- C170. With `av` origins of time, the non gaussian parameter at each lag is that of the displacements of all the particles during the intervals of
this lag that begin at the `av` first times. -/
theorem C170_nongaussian_window {F G : Type} [Field G] [CharZero G] {sq qu : F → F → R G} {positions : List F} {s q : Nat → Nat → G}
    (hs : ∀ (i j : Nat) (a b : F), positions[i]? = some a → positions[j]? = some b → sq a b = .ok (s i j))
    (hq : ∀ (i j : Nat) (a b : F), positions[i]? = some a → positions[j]? = some b → qu a b = .ok (q i j)) {start stop av : Nat} (h : start < stop)
    (hav : 0 < av) (hle : stop + av ≤ positions.length) (N : Nat) (hN : 0 < N) :
    ∃ α, nonGaussian sq qu N positions start stop av = .ok α ∧ α.length = stop - start ∧ α[0]? = some (-1 : G)
      ∧ ∀ k (n m2 m4 : G), 0 < k → k < stop - start → n = (av : G) * N →
        m2 = (∑ t0 ∈ Finset.range av, s (start + t0) (start + t0 + k)) / n →
        m4 = (∑ t0 ∈ Finset.range av, q (start + t0) (start + t0 + k)) / n → m2 ≠ 0 → α[k]? = some (3 * m4 / (5 * m2 ^ 2) - 1) := by
  unfold nonGaussian
  rw [lagSums_av hs h.le hav (by omega), ok_bind, lagSums_av hq h.le hav (by omega), ok_bind]
  simp only [if_neg hav.ne']
  refine ⟨_, rfl, by simp, ?_, ?_⟩
  · have h0 : 0 < stop - start := by omega
    simp only [List.getElem?_map, List.getElem?_zipIdx, List.zip, List.getElem?_zipWith, List.getElem?_range h0, Option.map_some, if_neg (lt_irrefl 0)]
    simp
  · intro k n m2 m4 hk hlt hn h2 h4 hne
    have hn0 : n ≠ 0 := by
      rw [hn, ← Nat.cast_mul]
      have : 0 < av * N := Nat.mul_pos hav hN
      exact_mod_cast this.ne'
    have hin : 0 < k ∧ start + k + av < min (stop + av) positions.length := by omega
    simp only [List.getElem?_map, List.getElem?_zipIdx, List.zip, List.getElem?_zipWith, List.getElem?_range hlt, Option.map_some,
      Nat.zero_add, if_neg hk.ne', if_pos hin]
    congr 2
    rw [Nat.cast_mul, ← hn]
    have e2 : ∑ t0 ∈ Finset.range av, s (start + t0) (start + t0 + k) = m2 * n := by rw [h2]; field_simp
    have e4 : ∑ t0 ∈ Finset.range av, q (start + t0) (start + t0 + k) = m4 * n := by rw [h4]; field_simp
    rw [e2, e4]
    field_simp

end Txp
end Py
end Colloids
