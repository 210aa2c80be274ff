import Verif.Py.AverageProps

/-! # Time correlations in python (C150, continued) -/

namespace Colloids
namespace Py
namespace Average
open Linker (get_mapRange replicate_map get_mapModify)
open Stat

theorem addFront_eq {G : Type} [AddCommMonoid G] (T size : Nat) (hsize : size ≤ T) (w : List G) (hw : w.length = size) (g : Nat → G) :
    addFront ((List.range T).map g) w size = .ok ((List.range T).map fun j => g j + w.getD j 0) := by
  unfold addFront
  rw [if_neg (by simp [hw, hsize])]
  congr 1
  apply List.ext_getElem?
  intro j
  rw [get_mapRange]
  by_cases h : j < size
  · rw [List.getElem?_append_left (by simp [hw]; omega), List.getElem?_zipWith, List.getElem?_take, if_pos h, get_mapRange,
      if_pos (by omega), if_pos (by omega), List.getElem?_eq_getElem (by omega : j < w.length), List.getD_eq_getElem _ _ (by omega)]
  · have hl : (List.zipWith (· + ·) (((List.range T).map g).take size) w).length = size := by simp [hw, hsize]
    rw [List.getElem?_append_right (by omega), hl, List.getElem?_drop, get_mapRange, show size + (j - size) = j by omega]
    by_cases h2 : j < T
    · rw [if_pos h2, if_pos h2, List.getD_eq_default _ _ (by omega), add_zero]
    · rw [if_neg h2, if_neg h2]

theorem correlation_all {D G : Type} [Field G] {tc : List D → R (List G)} (data : List D) (w : Nat → List G)
    (hw : ∀ t0, t0 < data.length → tc (data.drop t0) = .ok (w t0) ∧ (w t0).length = data.length - t0) :
    timeCorrelation tc data 0 = .ok ((List.range data.length).map fun k =>
      (∑ t0 ∈ Finset.range (data.length - 1), (w t0).getD k 0) / ((data.length - k : Nat) : G)) := by
  have hstep := fold_contrib data.length (fun c t0 => do
      let w ← tc (data.drop t0)
      addFront c w (data.length - t0)) (fun t0 j => (w t0).getD j 0) (List.range (data.length - 1)) (by
    intro t0 ht g
    rw [List.mem_range] at ht
    obtain ⟨h1, h2⟩ := hw t0 (by omega)
    rw [h1]
    simp only [ok_bind]
    exact addFront_eq _ _ (by omega) _ h2 g) fun _ => 0
  unfold timeCorrelation
  rw [if_pos rfl, replicate_map, hstep]
  simp only [ok_bind, List.length_map, List.length_range]
  rw [div_fold _ _ (le_refl _)]
  congr 1
  apply List.map_congr_left
  intro k hk
  rw [if_pos (List.mem_range.1 hk), zero_add, Mains.list_sum_range]

/-- C150. With `av = 0`, `time_correlation` is at every lag but 0 the mean of the correlations from all the origins of time that have
this lag. -/
theorem C150_correlation_partial {D G : Type} [Field G] [CharZero G] {tc : List D → R (List G)} (data : List D) (w : Nat → List G)
    (hw : ∀ t0, t0 < data.length → tc (data.drop t0) = .ok (w t0) ∧ (w t0).length = data.length - t0) :
    ∃ c, timeCorrelation tc data 0 = .ok c ∧ c.length = data.length ∧ ∀ k, 0 < k → k < data.length →
      c[k]? = some ((∑ t0 ∈ Finset.range (data.length - k), (w t0).getD k 0) / ((data.length - k : Nat) : G)) := by
  refine ⟨_, correlation_all data w hw, by simp, ?_⟩
  intro k h1 h2
  rw [get_mapRange, if_pos h2]
  congr 2
  symm
  apply Finset.sum_subset
  · intro t ht; rw [Finset.mem_range] at *; omega
  · intro t ht1 ht2
    rw [Finset.mem_range] at *
    exact List.getD_eq_default _ _ (by rw [(hw t (by omega)).2]; omega)

/-- C150. With `av` origins of time, `time_correlation` is at every lag the mean of the `av` correlations. -/
theorem C150_correlation_window {D G : Type} [Field G] [CharZero G] {tc : List D → R (List G)} (data : List D) (w : Nat → List G)
    (av : Nat) (hav : 0 < av) (hT : av ≤ data.length)
    (hw : ∀ t0, t0 < av → tc ((data.drop t0).take (data.length - av)) = .ok (w t0) ∧ (w t0).length = data.length - av) :
    ∃ c, timeCorrelation tc data av = .ok c ∧ c.length = data.length - av ∧ ∀ k < data.length - av,
      c[k]? = some ((∑ t0 ∈ Finset.range av, (w t0).getD k 0) / (av : G)) := by
  have hsl : ∀ t0, slice data t0 (data.length + t0 - av) = (data.drop t0).take (data.length - av) := by
    intro t0
    unfold slice
    rw [if_neg (by omega), show ((data.length : Int) + t0 - av).toNat = (data.length - av) + t0 by omega, List.drop_take]
    congr 1
    omega
  have hm : (List.range av).mapM (fun t0 => tc (slice data t0 (data.length + t0 - av))) = .ok ((List.range av).map w) := by
    have key : ∀ l : List Nat, (∀ t ∈ l, t < av) → l.mapM (fun t0 => tc (slice data t0 (data.length + t0 - av))) = .ok (l.map w) := by
      intro l
      induction l with
      | nil => intro _; rfl
      | cons t l ih =>
        intro hl
        rw [List.mapM_cons, ih fun t' ht' => hl t' (by simp [ht']), hsl, (hw t (hl t (by simp))).1]
        rfl
    exact key _ fun t ht => List.mem_range.1 ht
  unfold timeCorrelation
  rw [if_neg (by omega), hm]
  simp only [ok_bind]
  rw [idx_some (a := w 0) (by rw [get_mapRange, if_pos hav])]
  simp only [ok_bind]
  rw [if_neg (by
    simp only [List.any_eq_true, not_exists, not_and, decide_eq_true_eq]
    intro x hx
    obtain ⟨t, ht, rfl⟩ := List.mem_map.1 hx
    rw [(hw t (List.mem_range.1 ht)).2, (hw 0 hav).2]
    simp)]
  refine ⟨_, rfl, by simp [(hw 0 hav).2], ?_⟩
  intro k hk
  rw [get_mapRange, if_pos (by rw [(hw 0 hav).2]; exact hk), List.map_map, Mains.list_sum_range]
  rfl

theorem timecorrel_length {data : List (List ℂ)} {c : List ℂ} (h : timecorrel data = .ok c) : c.length = data.length := by
  unfold timecorrel at h
  cases hk : idx data 0 with
  | error e => rw [hk] at h; simp at h
  | ok k0 =>
    rw [hk] at h
    simp only [ok_bind, pure_eq_ok] at h
    cases h
    simp

/-- A window of numbers of modulus 1 is fully correlated at lag 0. -/
theorem timecorrel_unit {data : List (List ℂ)} {N : Nat} (hN : 0 < N) (hd : data ≠ []) (hrow : ∀ r ∈ data, r.length = N)
    (hu : ∀ r ∈ data, ∀ z ∈ r, ‖z‖ = 1) : ∃ c, timecorrel data = .ok c ∧ c[0]? = some 1 := by
  cases data with
  | nil => exact absurd rfl hd
  | cons r0 rest =>
    have hN0 : (N : ℂ) ≠ 0 := by exact_mod_cast (by omega : N ≠ 0)
    have hrow0 : r0.length = N := hrow r0 (by simp)
    have hrs : ∀ r ∈ r0 :: rest, (r.map fun z => ((‖z‖ ^ 2 : ℝ) : ℂ)).sum = N := by
      intro r hr
      have : r.map (fun z => ((‖z‖ ^ 2 : ℝ) : ℂ)) = r.map fun _ => (1 : ℂ) := by
        apply List.map_congr_left
        intro z hz
        rw [hu r hr z hz]; norm_num
      rw [this]
      simp [hrow r hr]
    have hall : ((r0 :: rest).map fun row => (row.map fun z => ((‖z‖ ^ 2 : ℝ) : ℂ)).sum).sum = ((r0 :: rest).length : ℂ) * N := by
      have : (r0 :: rest).map (fun row => (row.map fun z => ((‖z‖ ^ 2 : ℝ) : ℂ)).sum) = (r0 :: rest).map fun _ => (N : ℂ) :=
        List.map_congr_left hrs
      rw [this]
      simp
      ring
    have hz : (List.zipWith (fun z z0 => z * (starRingEnd ℂ) z0) r0 r0).sum = (N : ℂ) := by
      rw [List.zipWith_self]
      have : r0.map (fun z => z * (starRingEnd ℂ) z) = r0.map fun z => ((‖z‖ ^ 2 : ℝ) : ℂ) := by
        apply List.map_congr_left
        intro z _
        rw [Complex.mul_conj, Complex.normSq_eq_norm_sq]
      rw [this]
      exact hrs r0 (by simp)
    refine ⟨(r0 :: rest).map fun row => (List.zipWith (fun z z0 => z * (starRingEnd ℂ) z0) row r0).sum / (r0.length : ℂ) /
      (((r0 :: rest).map fun row => (row.map fun z => ((‖z‖ ^ 2 : ℝ) : ℂ)).sum).sum / (((r0 :: rest).length * r0.length : Nat) : ℂ)), ?_, ?_⟩
    · unfold timecorrel
      simp only [idx, List.getElem?_cons_zero, ok_bind, pure_eq_ok]
    · rw [List.map_cons, List.getElem?_cons_zero, hz, hall, hrow0]
      have hl : ((r0 :: rest).length : ℂ) ≠ 0 := by
        exact_mod_cast (by simp : (r0 :: rest).length ≠ 0)
      rw [Nat.cast_mul, div_self hN0, div_self (mul_ne_zero hl hN0), div_one]

/-- C150, the part that is false. With `av = 0` one origin of time is missing at lag 0: the correlation of numbers of modulus 1, such as those
of the self intermediate scattering function, is not 1 at lag 0 but a bit less. -/
theorem C150_zero_lag_counterexample (data : List (List ℂ)) (N : Nat) (hN : 0 < N) (hd : data ≠ []) (hrow : ∀ r ∈ data, r.length = N)
    (hu : ∀ r ∈ data, ∀ z ∈ r, ‖z‖ = 1) :
    ∃ c z, timeCorrelation timecorrel data 0 = .ok c ∧ c[0]? = some z ∧ z = ((data.length - 1 : Nat) : ℂ) / (data.length : ℂ) ∧ z ≠ 1 := by
  have hex : ∀ t0, ∃ w, t0 < data.length → timecorrel (data.drop t0) = .ok w ∧ w.length = data.length - t0 ∧ w[0]? = some 1 := by
    intro t0
    by_cases ht : t0 < data.length
    · obtain ⟨c, h1, h2⟩ := timecorrel_unit (data := data.drop t0) hN (by simp; omega) (fun r hr => hrow r (List.mem_of_mem_drop hr))
        fun r hr => hu r (List.mem_of_mem_drop hr)
      exact ⟨c, fun _ => ⟨h1, by rw [timecorrel_length h1, List.length_drop], h2⟩⟩
    · exact ⟨[], fun h => absurd h ht⟩
  choose w hw using hex
  have hl : 0 < data.length := List.length_pos_of_ne_nil hd
  refine ⟨_, _, correlation_all data w fun t0 ht => ⟨(hw t0 ht).1, (hw t0 ht).2.1⟩, by rw [get_mapRange, if_pos hl], ?_, ?_⟩
  all_goals
    have hs : ∑ t0 ∈ Finset.range (data.length - 1), (w t0).getD 0 0 = ((data.length - 1 : Nat) : ℂ) := by
      rw [Finset.sum_congr rfl (fun t0 ht => by
        rw [Finset.mem_range] at ht
        rw [List.getD_eq_getElem?_getD, (hw t0 (by omega)).2.2, Option.getD_some] : ∀ t0 ∈ Finset.range (data.length - 1),
          (w t0).getD 0 0 = (1 : ℂ))]
      simp
    rw [hs, Nat.sub_zero]
  intro h
  have hne : (data.length : ℂ) ≠ 0 := by exact_mod_cast (by omega : data.length ≠ 0)
  rw [div_eq_one_iff_eq hne] at h
  have : data.length - 1 = data.length := by exact_mod_cast h
  omega

/-- Two times and one particle that does not move: 1/2 at lag 0. -/
example : 0 < 1 ∧ [[(1 : ℂ)], [1]] ≠ [] ∧ (∀ r ∈ [[(1 : ℂ)], [1]], r.length = 1) ∧ ∀ r ∈ [[(1 : ℂ)], [1]], ∀ z ∈ r, ‖z‖ = 1 := by
  refine ⟨by decide, by simp, by simp, by simp⟩

/-- The hypotheses of `C150_correlation_partial` and `C150_correlation_window` are met by these numbers. -/
example : ∃ w : Nat → List ℂ, ∀ t0, t0 < 2 → timecorrel ([[(1 : ℂ)], [1]].drop t0) = .ok (w t0) ∧ (w t0).length = 2 - t0 := by
  have hex : ∀ t0, ∃ w, t0 < 2 → timecorrel ([[(1 : ℂ)], [1]].drop t0) = .ok w ∧ w.length = 2 - t0 := by
    intro t0
    by_cases ht : t0 < 2
    · obtain ⟨c, h1, _⟩ := timecorrel_unit (data := [[(1 : ℂ)], [1]].drop t0) (N := 1) (by decide) (by simp; omega)
        (fun r hr => by have := List.mem_of_mem_drop hr; simp at this; simp [this])
        fun r hr => by have := List.mem_of_mem_drop hr; simp at this; simp [this]
      exact ⟨c, fun _ => ⟨h1, by rw [timecorrel_length h1, List.length_drop]; rfl⟩⟩
    · exact ⟨[], fun h => absurd h ht⟩
  choose w hw using hex
  exact ⟨w, hw⟩

end Average
end Py
end Colloids
