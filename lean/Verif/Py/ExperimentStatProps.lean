import Verif.Py.ExperimentLoadProps
import Mathlib.Tactic.FieldSimp
import Mathlib.Tactic.Positivity
import Mathlib.Tactic.Linarith

/-! # Density and mean square displacement of an experiment in python -/

namespace Colloids
namespace Py
namespace Exp

/-! ## Density -/

theorem foldl_min (l : List ℝ) (a : ℝ) : l.foldl min a ∈ a :: l ∧ ∀ b ∈ a :: l, l.foldl min a ≤ b := by
  induction l generalizing a with
  | nil => simp
  | cons c l ih =>
    obtain ⟨h1, h2⟩ := ih (min a c)
    rw [List.foldl_cons]
    constructor
    · rcases List.mem_cons.1 h1 with h | h
      · rw [h]
        rcases min_choice a c with e | e <;> rw [e] <;> simp
      · simp [h]
    · intro b hb
      have hm := h2 (min a c) (by simp)
      rcases List.mem_cons.1 hb with rfl | hb
      · exact hm.trans (min_le_left _ _)
      · rcases List.mem_cons.1 hb with rfl | hb
        · exact hm.trans (min_le_right _ _)
        · exact h2 b (by simp [hb])

theorem foldl_max (l : List ℝ) (a : ℝ) : l.foldl max a ∈ a :: l ∧ ∀ b ∈ a :: l, b ≤ l.foldl max a := by
  induction l generalizing a with
  | nil => simp
  | cons c l ih =>
    obtain ⟨h1, h2⟩ := ih (max a c)
    rw [List.foldl_cons]
    constructor
    · rcases List.mem_cons.1 h1 with h | h
      · rw [h]
        rcases max_choice a c with e | e <;> rw [e] <;> simp
      · simp [h]
    · intro b hb
      have hm := h2 (max a c) (by simp)
      rcases List.mem_cons.1 hb with rfl | hb
      · exact (le_max_left _ _).trans hm
      · rcases List.mem_cons.1 hb with rfl | hb
        · exact (le_max_right _ _).trans hm
        · exact h2 b (by simp [hb])

/-- The lowest value of a coordinate. -/
structure Lowest (coords : List V) (k : Fin 3) (x : ℝ) : Prop where
  attained : ∃ c ∈ coords, c k = x
  le : ∀ c ∈ coords, x ≤ c k

/-- The highest value of a coordinate. -/
structure Highest (coords : List V) (k : Fin 3) (x : ℝ) : Prop where
  attained : ∃ c ∈ coords, c k = x
  le : ∀ c ∈ coords, c k ≤ x

theorem amin_ok {coords : List V} (h : coords ≠ []) (k : Fin 3) : ∃ x, amin (coords.map (· k)) = .ok x ∧ Lowest coords k x := by
  obtain ⟨c, l, rfl⟩ := List.exists_cons_of_ne_nil h
  obtain ⟨h1, h2⟩ := foldl_min (l.map (· k)) (c k)
  have e : c k :: l.map (· k) = (c :: l).map (· k) := rfl
  rw [e] at h1 h2
  refine ⟨_, rfl, ⟨?_, ?_⟩⟩
  · obtain ⟨d, hd, he⟩ := List.mem_map.1 h1
    exact ⟨d, hd, he⟩
  · intro d hd
    exact h2 _ (List.mem_map.2 ⟨d, hd, rfl⟩)

theorem amax_ok {coords : List V} (h : coords ≠ []) (k : Fin 3) : ∃ x, amax (coords.map (· k)) = .ok x ∧ Highest coords k x := by
  obtain ⟨c, l, rfl⟩ := List.exists_cons_of_ne_nil h
  obtain ⟨h1, h2⟩ := foldl_max (l.map (· k)) (c k)
  have e : c k :: l.map (· k) = (c :: l).map (· k) := rfl
  rw [e] at h1 h2
  refine ⟨_, rfl, ⟨?_, ?_⟩⟩
  · obtain ⟨d, hd, he⟩ := List.mem_map.1 h1
    exact ⟨d, hd, he⟩
  · intro d hd
    exact h2 _ (List.mem_map.2 ⟨d, hd, rfl⟩)

theorem boxVolume_ok {coords : List V} (h : coords ≠ []) :
    ∃ lo hi : V, boxVolume coords = .ok ((hi 0 - lo 0) * (hi 1 - lo 1) * (hi 2 - lo 2)) ∧ ∀ k, Lowest coords k (lo k) ∧ Highest coords k (hi k) := by
  choose lo l1 l2 using amin_ok h
  choose hi h1 h2 using amax_ok h
  refine ⟨lo, hi, ?_, fun k => ⟨l2 k, h2 k⟩⟩
  unfold boxVolume
  have e : List.finRange 3 = [0, 1, 2] := rfl
  rw [e]
  simp only [List.mapM_cons, List.mapM_nil, l1, h1, ok_bind, pure_eq_ok]
  congr 1
  simp
  ring

theorem boxVolume_empty : boxVolume [] = .error .invalidArgument := by
  unfold boxVolume
  have e : List.finRange 3 = [0, 1, 2] := rfl
  rw [e]
  rfl

/-- C166. At each time `get_Nb_density` counts all the particles and gives the volume of the smallest box along the axes that contains them;
without particles it fails. -/
theorem C166_density (coords : List V) : (coords = [] → nbDensity coords = .error .invalidArgument) ∧ (coords ≠ [] →
    ∃ lo hi : V, nbDensity coords = .ok (coords.length, (hi 0 - lo 0) * (hi 1 - lo 1) * (hi 2 - lo 2))
      ∧ ∀ k, Lowest coords k (lo k) ∧ Highest coords k (hi k)) := by
  constructor
  · rintro rfl
    unfold nbDensity
    rw [boxVolume_empty]
    rfl
  · intro h
    obtain ⟨lo, hi, h1, h2⟩ := boxVolume_ok h
    refine ⟨lo, hi, ?_, h2⟩
    unfold nbDensity
    rw [h1]
    rfl

theorem Lowest.unique {coords : List V} {k : Fin 3} {x y : ℝ} (hx : Lowest coords k x) (hy : Lowest coords k y) : x = y := by
  obtain ⟨c, hc, rfl⟩ := hx.attained
  obtain ⟨d, hd, rfl⟩ := hy.attained
  exact le_antisymm (hx.le d hd) (hy.le c hc)

theorem Highest.unique {coords : List V} {k : Fin 3} {x y : ℝ} (hx : Highest coords k x) (hy : Highest coords k y) : x = y := by
  obtain ⟨c, hc, rfl⟩ := hx.attained
  obtain ⟨d, hd, rfl⟩ := hy.attained
  exact le_antisymm (hy.le c hc) (hx.le d hd)

/-- C166 fails for a slab without lower margin, as by default: no particle is lower than the lowest one, nothing is selected and
`get_zPortion_Nbd` raises `ValueError`, for all the positions. -/
theorem C166_slab_default_counterexample (coords : List V) (lowerMargin upperMargin : ℝ) (h : lowerMargin ≤ 0) :
    zPortion lowerMargin upperMargin coords = .error .invalidArgument := by
  classical
  by_cases h0 : coords = []
  · subst h0; rfl
  · obtain ⟨lo, l1, l2⟩ := amin_ok h0 2
    obtain ⟨hi, h1, h2⟩ := amax_ok h0 2
    unfold zPortion
    rw [l1, ok_bind, h1, ok_bind]
    have : (coords.filter fun c => decide (lo + lowerMargin > c 2 ∧ c 2 < hi - upperMargin)) = [] := by
      rw [List.filter_eq_nil_iff]
      intro c hc
      have := l2.le c hc
      simp only [decide_eq_true_eq, not_and]
      intro h3
      linarith
    simp only
    have e : ∀ (l : List V), l = [] → (boxVolume l >>= fun v => (pure (l.length, v) : R (Nat × ℝ))) = .error .invalidArgument := by
      rintro l rfl
      rw [boxVolume_empty]
      rfl
    refine e _ ?_
    convert this using 3

/-- C166 fails for all the slabs with a lower margin: the particles that are counted are those under the slab. -/
theorem C166_slab_counterexample (coords : List V) (lowerMargin upperMargin lo hi : ℝ) (hlo : Lowest coords 2 lo) (hhi : Highest coords 2 hi)
    (h : 0 < lowerMargin) (hle : lo + lowerMargin ≤ hi - upperMargin) :
    ∃ kept v, zPortion lowerMargin upperMargin coords = .ok (kept.length, v) ∧ kept.Sublist coords ∧ kept ≠ []
      ∧ ∀ c ∈ coords, c ∈ kept ↔ c 2 < lo + lowerMargin := by
  classical
  have h0 : coords ≠ [] := by
    rintro rfl
    obtain ⟨c, hc, -⟩ := hlo.attained
    cases hc
  obtain ⟨lo', l1, l2⟩ := amin_ok h0 2
  obtain ⟨hi', h1, h2⟩ := amax_ok h0 2
  obtain rfl := hlo.unique l2
  obtain rfl := hhi.unique h2
  have hmem : ∀ c ∈ coords, c ∈ (coords.filter fun c => decide (lo + lowerMargin > c 2 ∧ c 2 < hi - upperMargin)) ↔ c 2 < lo + lowerMargin := by
    intro c hc
    rw [List.mem_filter]
    simp only [decide_eq_true_eq]
    exact ⟨fun h => h.2.1, fun h => ⟨hc, h, by linarith⟩⟩
  have hne : (coords.filter fun c => decide (lo + lowerMargin > c 2 ∧ c 2 < hi - upperMargin)) ≠ [] := by
    obtain ⟨c, hc, he⟩ := hlo.attained
    exact List.ne_nil_of_mem ((hmem c hc).2 (by rw [he]; linarith))
  obtain ⟨a, b, v1, -⟩ := boxVolume_ok hne
  refine ⟨_, (b 0 - a 0) * (b 1 - a 1) * (b 2 - a 2), ?_, List.filter_sublist, hne, hmem⟩
  · unfold zPortion
    rw [l1, ok_bind, h1, ok_bind]
    have e : ∀ l : List V, l = (coords.filter fun c => decide (lo + lowerMargin > c 2 ∧ c 2 < hi - upperMargin)) →
        (boxVolume l >>= fun v => (pure (l.length, v) : R (Nat × ℝ)))
          = .ok ((coords.filter fun c => decide (lo + lowerMargin > c 2 ∧ c 2 < hi - upperMargin)).length, (b 0 - a 0) * (b 1 - a 1) * (b 2 - a 2)) := by
      rintro l rfl
      rw [v1]
      rfl
    refine e _ ?_
    congr 1

example : Lowest [fun _ => 0, fun _ => 1] 2 0 ∧ Highest [fun _ => 0, fun _ => 1] 2 1 :=
  ⟨⟨⟨fun _ => 0, by simp, rfl⟩, by simp⟩, ⟨⟨fun _ => 1, by simp, rfl⟩, by simp⟩⟩

/-! ## Mean square displacement -/

/-- The mean of vectors. -/
noncomputable def meanV (d : List V) : V := fun k => (d.map (· k)).sum / d.length

/-- The mean square displacement, by component, with respect to the mean displacement. -/
noncomputable def meanSq (d : List V) : ℝ := (d.map fun v => ∑ k, (v k - meanV d k) ^ 2).sum / (3 * d.length)

theorem sum_sq (d : List V) (c : V) : (d.map fun v => ∑ k, (v k - c k) ^ 2).sum
    = (d.map fun v => ∑ k, v k ^ 2).sum - 2 * (∑ k, c k * (d.map (· k)).sum) + d.length * ∑ k, c k ^ 2 := by
  induction d with
  | nil => simp
  | cons v d ih =>
    simp only [List.map_cons, List.sum_cons, ih, List.length_cons]
    simp only [Fin.sum_univ_three]
    push_cast
    ring

theorem sum_all (d : List V) : (d.map fun v => ∑ k, v k).sum = ∑ k, (d.map (· k)).sum := by
  induction d with
  | nil => simp
  | cons v d ih =>
    simp only [List.map_cons, List.sum_cons, ih]
    simp only [Fin.sum_univ_three]
    ring

theorem lastOf_some {l : List Nat} {tr : Nat} (h : tr ∈ l) : ∃ i, lastOf l tr = some i ∧ l[i]? = some tr := by
  unfold lastOf
  obtain ⟨i, hi⟩ := List.mem_iff_getElem?.1 h
  have hne : (l.zipIdx.filter fun x => decide (x.1 = tr)) ≠ [] :=
    List.ne_nil_of_mem (List.mem_filter.2 ⟨(by simpa [List.mem_zipIdx_iff_getElem?] using hi : (tr, i) ∈ l.zipIdx), by simp⟩)
  rw [List.getLast?_eq_some_getLast hne]
  refine ⟨_, rfl, ?_⟩
  have := List.getLast_mem hne
  rw [List.mem_filter] at this
  obtain ⟨h1, h2⟩ := this
  rw [List.mem_zipIdx_iff_getElem?] at h1
  rw [h1]
  simpa using h2

theorem mem_common {a b : List Nat} {v : Nat} : v ∈ common a b ↔ v ∈ a ∧ v ∈ b := by
  unfold common
  rw [List.mem_filter]
  simp only [List.mem_range, decide_eq_true_eq]
  constructor
  · exact fun h => h.2
  · intro h
    refine ⟨?_, h⟩
    have : ∀ (l : List Nat) (m : Nat), m ≤ l.foldl max m ∧ ∀ x ∈ l, x ≤ l.foldl max m := by
      intro l
      induction l with
      | nil => intro m; simp
      | cons c l ih =>
        intro m
        obtain ⟨h1, h2⟩ := ih (max m c)
        rw [List.foldl_cons]
        refine ⟨le_trans (le_max_left _ _) h1, ?_⟩
        intro x hx
        rcases List.mem_cons.1 hx with rfl | hx
        · exact le_trans (le_max_right _ _) h1
        · exact h2 x hx
    have := (this a 0).2 v h.1
    omega

/-- The displacements between two times of the trajectories that exist at both: each trajectory once, from its position at the first time
to its position at the second one. -/
structure Displacements (p0 p1 : List V) (p2tr0 p2tr1 : List Nat) (trs : List Nat) (d : List V) : Prop where
  nodup : trs.Nodup
  both : ∀ tr, tr ∈ trs ↔ tr ∈ p2tr0 ∧ tr ∈ p2tr1
  length : d.length = trs.length
  step : ∀ n tr i j : Nat, trs[n]? = some tr → p2tr0[i]? = some tr → p2tr1[j]? = some tr → ∃ a b, p0[i]? = some a ∧ p1[j]? = some b ∧ d[n]? = some (b - a)

theorem nodup_unique {l : List Nat} (h : l.Nodup) {i j tr : Nat} (hi : l[i]? = some tr) (hj : l[j]? = some tr) : i = j := by
  obtain ⟨h1, e1⟩ := List.getElem?_eq_some_iff.1 hi
  obtain ⟨h2, e2⟩ := List.getElem?_eq_some_iff.1 hj
  exact (List.Nodup.getElem_inj_iff h).1 (e1.trans e2.symm)

theorem displacements {p0 p1 : List V} {p2tr0 p2tr1 : List Nat} (h0 : p2tr0.length = p0.length) (h1 : p2tr1.length = p1.length)
    (n0 : p2tr0.Nodup) (n1 : p2tr1.Nodup) :
    ∃ d, ((common p2tr0 p2tr1).mapM fun tr => displacement p0 p1 p2tr0 p2tr1 tr) = .ok d ∧ Displacements p0 p1 p2tr0 p2tr1 (common p2tr0 p2tr1) d := by
  classical
  have hstep : ∀ tr ∈ common p2tr0 p2tr1, ∃ v, displacement p0 p1 p2tr0 p2tr1 tr = .ok v ∧ ∀ i j : Nat, p2tr0[i]? = some tr → p2tr1[j]? = some tr →
      ∃ a b, p0[i]? = some a ∧ p1[j]? = some b ∧ v = b - a := by
    intro tr htr
    obtain ⟨m0, m1⟩ := mem_common.1 htr
    obtain ⟨i, i1, i2⟩ := lastOf_some m0
    obtain ⟨j, j1, j2⟩ := lastOf_some m1
    have hi : i < p0.length := by rw [← h0]; exact (List.getElem?_eq_some_iff.1 i2).1
    have hj : j < p1.length := by rw [← h1]; exact (List.getElem?_eq_some_iff.1 j2).1
    refine ⟨p1[j] - p0[i], ?_, ?_⟩
    · unfold displacement
      rw [i1, j1]
      simp only
      rw [Average.idx_some (List.getElem?_eq_getElem hi), ok_bind, Average.idx_some (List.getElem?_eq_getElem hj), ok_bind]
      rfl
    · intro i' j' hi' hj'
      obtain rfl := nodup_unique n0 i2 hi'
      obtain rfl := nodup_unique n1 j2 hj'
      exact ⟨_, _, List.getElem?_eq_getElem hi, List.getElem?_eq_getElem hj, rfl⟩
  let g : Nat → V := fun tr => if h : tr ∈ common p2tr0 p2tr1 then (hstep tr h).choose else 0
  refine ⟨(common p2tr0 p2tr1).map g, ?_, ?_, fun tr => mem_common, by simp, ?_⟩
  · apply TreeIndex.mapM_ok_of
    intro tr htr
    simp only [g, dif_pos htr]
    exact (hstep tr htr).choose_spec.1
  · unfold common
    exact List.Nodup.filter _ List.nodup_range
  · intro n tr i j hn hi hj
    have htr := List.mem_of_getElem? hn
    obtain ⟨a, b, ha, hb, he⟩ := (hstep tr htr).choose_spec.2 i j hi hj
    refine ⟨a, b, ha, hb, ?_⟩
    rw [List.getElem?_map, hn]
    simp only [Option.map_some, g, dif_pos htr, he]

/-- C167. For two times whose positions are in different trajectories, `Experiment.msd` uses each trajectory that exists at both times, once, and
gives the mean square displacement, by component, with respect to the mean displacement, plus the variance of the three components of the
mean displacement. -/
theorem C167_excess {p0 p1 : List V} {p2tr0 p2tr1 : List Nat} (h0 : p2tr0.length = p0.length) (h1 : p2tr1.length = p1.length)
    (n0 : p2tr0.Nodup) (n1 : p2tr1.Nodup) (tr : Nat) (htr : tr ∈ p2tr0 ∧ tr ∈ p2tr1) :
    ∃ trs d, Displacements p0 p1 p2tr0 p2tr1 trs d ∧ d ≠ []
      ∧ msd p0 p1 p2tr0 p2tr1 = .ok (meanSq d + (∑ k, (meanV d k - (∑ j, meanV d j) / 3) ^ 2) / 3) := by
  obtain ⟨d, hd, hD⟩ := displacements h0 h1 n0 n1
  have hne : d ≠ [] := by
    have : 0 < (common p2tr0 p2tr1).length := List.length_pos_of_mem (mem_common.2 htr)
    apply List.ne_nil_of_length_pos
    rw [hD.length]
    exact this
  refine ⟨_, d, hD, hne, ?_⟩
  unfold msd
  rw [hd, ok_bind, pure_eq_ok]
  congr 1
  have hn : (d.length : ℝ) ≠ 0 := by
    have := List.length_pos_of_ne_nil hne
    positivity
  have e1 : meanAll (d.map fun v k => (v k - meanAll d) ^ 2) = (d.map fun v => ∑ k, (v k - (fun _ => meanAll d : V) k) ^ 2).sum / (3 * d.length) := by
    unfold meanAll
    rw [List.map_map, List.length_map]
    rfl
  rw [e1, sum_sq, meanSq, sum_sq]
  have e2 : meanAll d = (∑ j, meanV d j) / 3 := by
    unfold meanAll meanV
    rw [sum_all]
    simp only [Fin.sum_univ_three]
    field_simp
  rw [e2]
  have e3 : ∀ k, (d.map (· k)).sum = meanV d k * d.length := by
    intro k
    unfold meanV
    field_simp
  simp only [e3]
  simp only [Fin.sum_univ_three]
  field_simp
  ring

/-- C167. When the mean displacement is the same along the three axes, for example without drift, `Experiment.msd` is the mean square displacement
by component, with respect to the mean displacement. -/
theorem C167_msd_partial {p0 p1 : List V} {p2tr0 p2tr1 : List Nat} (h0 : p2tr0.length = p0.length) (h1 : p2tr1.length = p1.length)
    (n0 : p2tr0.Nodup) (n1 : p2tr1.Nodup) (tr : Nat) (htr : tr ∈ p2tr0 ∧ tr ∈ p2tr1) :
    ∃ trs d, Displacements p0 p1 p2tr0 p2tr1 trs d ∧ ((∀ j k, meanV d j = meanV d k) → msd p0 p1 p2tr0 p2tr1 = .ok (meanSq d)) := by
  obtain ⟨trs, d, hD, -, h⟩ := C167_excess h0 h1 n0 n1 tr htr
  refine ⟨trs, d, hD, fun heq => ?_⟩
  rw [h]
  congr 1
  have a := heq 1 0
  have b := heq 2 0
  simp only [Fin.sum_univ_three, a, b]
  ring

/-- C167 fails for all the drifts that are not the same along the three axes: when all the particles move together, the mean square
displacement is not 0 although the drift is removed. -/
theorem C167_drift_counterexample {p0 p1 : List V} {p2tr0 p2tr1 : List Nat} (h0 : p2tr0.length = p0.length) (h1 : p2tr1.length = p1.length)
    (n0 : p2tr0.Nodup) (n1 : p2tr1.Nodup) (tr : Nat) (htr : tr ∈ p2tr0 ∧ tr ∈ p2tr1) (w : V)
    (hw : ∀ (tr i j : Nat) (a b : V), p2tr0[i]? = some tr → p2tr1[j]? = some tr → p0[i]? = some a → p1[j]? = some b → b = a + w) (hne : ¬ (w 0 = w 1 ∧ w 1 = w 2)) :
    ∃ x, msd p0 p1 p2tr0 p2tr1 = .ok x ∧ 0 < x := by
  obtain ⟨trs, d, hD, hd, h⟩ := C167_excess h0 h1 n0 n1 tr htr
  have hall : ∀ v ∈ d, v = w := by
    intro v hv
    obtain ⟨n, hn⟩ := List.mem_iff_getElem?.1 hv
    have hlt : n < trs.length := by rw [← hD.length]; exact (List.getElem?_eq_some_iff.1 hn).1
    have ht : trs[n]? = some trs[n] := List.getElem?_eq_getElem hlt
    obtain ⟨b0, b1⟩ := (hD.both trs[n]).1 (List.getElem_mem _)
    obtain ⟨i, hi⟩ := List.mem_iff_getElem?.1 b0
    obtain ⟨j, hj⟩ := List.mem_iff_getElem?.1 b1
    obtain ⟨a, b, ha, hb, he⟩ := hD.step n _ i j ht hi hj
    rw [hn] at he
    rw [Option.some.inj he, hw _ i j a b hi hj ha hb]
    abel
  have hn : (d.length : ℝ) ≠ 0 := by
    have := List.length_pos_of_ne_nil hd
    positivity
  have hmean : meanV d = w := by
    funext k
    unfold meanV
    have : d.map (· k) = List.replicate d.length (w k) := by
      rw [List.eq_replicate_iff]
      refine ⟨by simp, ?_⟩
      intro b hb
      obtain ⟨v, hv, rfl⟩ := List.mem_map.1 hb
      rw [hall v hv]
    rw [this, List.sum_replicate]
    simp only [nsmul_eq_mul]
    field_simp
  have hsq : 0 ≤ meanSq d := by
    unfold meanSq
    apply div_nonneg _ (by positivity)
    apply List.sum_nonneg
    intro x hx
    obtain ⟨v, -, rfl⟩ := List.mem_map.1 hx
    positivity
  refine ⟨_, h, ?_⟩
  rw [hmean]
  have : 0 < ∑ k, (w k - (∑ j, w j) / 3) ^ 2 := by
    simp only [Fin.sum_univ_three]
    by_contra hc
    apply hne
    have a0 := sq_nonneg (w 0 - (w 0 + w 1 + w 2) / 3)
    have a1 := sq_nonneg (w 1 - (w 0 + w 1 + w 2) / 3)
    have a2 := sq_nonneg (w 2 - (w 0 + w 1 + w 2) / 3)
    have z0 : w 0 - (w 0 + w 1 + w 2) / 3 = 0 := pow_eq_zero_iff (two_ne_zero) |>.1 (by linarith)
    have z1 : w 1 - (w 0 + w 1 + w 2) / 3 = 0 := pow_eq_zero_iff (two_ne_zero) |>.1 (by linarith)
    have z2 : w 2 - (w 0 + w 1 + w 2) / 3 = 0 := pow_eq_zero_iff (two_ne_zero) |>.1 (by linarith)
    constructor <;> linarith
  have := div_pos this (by norm_num : (0 : ℝ) < 3)
  linarith

/-- One particle that moves along an axis. -/
example : ∃ x, msd [fun _ => 0] [![1, 0, 0]] [0] [0] = .ok x ∧ 0 < x := by
  refine C167_drift_counterexample rfl rfl (by simp) (by simp) 0 (by simp) ![1, 0, 0] ?_ (by simp)
  intro tr i j a b hi hj ha hb
  obtain ⟨hi, rfl⟩ := List.getElem?_eq_some_iff.1 ha
  obtain ⟨hj, rfl⟩ := List.getElem?_eq_some_iff.1 hb
  obtain rfl : i = 0 := by simpa using hi
  obtain rfl : j = 0 := by simpa using hj
  funext k
  simp

end Exp
end Py
end Colloids
