import Verif.Parallel.FilmModel
import Verif.Parallel.Incr
import Verif.Dyn.NgpProps

/-! # Properties of the averages over a film with several threads -/

namespace Colloids

namespace Parallel

open Dyn

variable {G : Type} [Field G] [LinearOrder G]

/-- The additions of the three coordinates of a displacement. -/
def adds3 (u : Coord G) : List (Fin 3 × G) := [(0, u 0), (1, u 1), (2, u 2)]

omit [LinearOrder G] in
theorem sumAt_adds3 (u : Coord G) (a : Fin 3) : sumAt a (adds3 u) = u a := by
  match a with
  | 0 => simp [adds3]
  | 1 => simp [adds3]
  | 2 => simp [adds3]

theorem driftIters_eq {D : DynParts G} {sel : List Nat} {t0 t1 : Nat} {u : Nat → Coord G}
    (hu : ∀ tr ∈ sel, getDiff D tr t0 tr t1 = .ok (u tr)) :
    driftIters D sel t0 t1 = .ok (sel.map (fun tr => adds3 (u tr))) := by
  apply TreeIndex.mapM_ok_of
  intro tr htr
  rw [hu tr htr, ok_bind, pure_eq_ok]
  rfl

omit [LinearOrder G] in
theorem sum_adds3 (u : Nat → Coord G) (sel : List Nat) (a : Fin 3) :
    ((sel.map (fun tr => adds3 (u tr))).map (sumAt a)).sum = (sel.map (fun tr => u tr a)).sum := by
  rw [List.map_map]
  congr 1
  apply List.map_congr_left
  intro tr _
  exact sumAt_adds3 (u tr) a

theorem getDriftOf_eq {D : DynParts G} {sel : List Nat} {t0 t1 : Nat} {u : Nat → Coord G} (h2 : 2 ≤ sel.length)
    (hu : ∀ tr ∈ sel, getDiff D tr t0 tr t1 = .ok (u tr)) :
    getDriftOf D sel t0 t1 = .ok (fun a => (sel.map (fun tr => u tr a)).sum / (sel.length : G)) := by
  unfold getDriftOf
  rw [if_neg (by omega)]
  have key : ∀ (l : List Nat) (acc : Coord G), (∀ tr ∈ l, getDiff D tr t0 tr t1 = .ok (u tr)) →
      l.foldlM (fun (drift : Coord G) tr => do
        let diff ← getDiff D tr t0 tr t1
        pure (drift + diff)) acc = .ok (fun a => acc a + (l.map (fun tr => u tr a)).sum) := by
    intro l
    induction l with
    | nil => intro acc _; simp [pure_eq_ok]
    | cons tr l ih =>
      intro acc h
      rw [List.foldlM_cons, h tr (by simp), ok_bind, pure_eq_ok, ok_bind, ih _ (fun t ht => h t (by simp [ht]))]
      congr 1
      funext a
      simp [add_assoc]
  rw [key sel 0 hu, ok_bind, pure_eq_ok]
  simp

/-- **C135** (one thread): the drift of the sequential model is a possible result. -/
theorem C135_drift_sequential {D : DynParts G} {sel : List Nat} {t0 t1 : Nat} {u : Nat → Coord G}
    (hu : ∀ tr ∈ sel, getDiff D tr t0 tr t1 = .ok (u tr)) :
    ∃ d, getDriftOf D sel t0 t1 = .ok d ∧ DriftEnds D sel t0 t1 d := by
  by_cases h2 : sel.length < 2
  · refine ⟨0, ?_, ?_⟩
    · unfold getDriftOf; rw [if_pos h2]; rfl
    · unfold DriftEnds; rw [if_pos h2]
  · refine ⟨_, getDriftOf_eq (by omega) hu, ?_⟩
    unfold DriftEnds
    rw [if_neg h2]
    refine ⟨_, _, driftIters_eq hu, ends_sum 0 _ (fun _ => 0), ?_⟩
    funext a
    rw [sum_adds3, zero_add]

/-- **C135** (drift, counterexample): for any two trajectories or more, any of them and any axis, the drift can be the
displacement of this trajectory alone divided by their number along this axis, and exact along the others. -/
theorem C135_drift_counterexample {D : DynParts G} {sel : List Nat} {t0 t1 : Nat} {u : Nat → Coord G}
    (h2 : 2 ≤ sel.length) (hu : ∀ tr ∈ sel, getDiff D tr t0 tr t1 = .ok (u tr)) (tr : Nat) (htr : tr ∈ sel)
    (a : Fin 3) :
    ∃ d e, DriftEnds D sel t0 t1 d ∧ getDriftOf D sel t0 t1 = .ok e ∧ d a = u tr a / (sel.length : G) ∧
      ∀ b, b ≠ a → d b = e b := by
  obtain ⟨i, hi⟩ := List.getElem?_of_mem htr
  have hi' : (sel.map (fun tr => adds3 (u tr)))[i]? = some (adds3 (u tr)) := by rw [List.getElem?_map, hi]; rfl
  obtain ⟨mem, he, h3, h4⟩ := ends_lost 0 (sel.map (fun tr => adds3 (u tr))) (fun _ => 0) a (fun q => decide (q = i)) i
    _ hi' (by simp) (by
      match a with
      | 0 => exact ⟨(0, u tr 0), by simp [adds3], rfl⟩
      | 1 => exact ⟨(1, u tr 1), by simp [adds3], rfl⟩
      | 2 => exact ⟨(2, u tr 2), by simp [adds3], rfl⟩)
  rw [share_single _ i _ hi'] at h3
  refine ⟨fun b => mem b / (sel.length : G), _, ?_, getDriftOf_eq h2 hu, ?_, ?_⟩
  · unfold DriftEnds
    rw [if_neg (by omega)]
    exact ⟨_, mem, driftIters_eq hu, he, rfl⟩
  · simp only [h3]
    simp [sumAt_adds3]
  · intro b hb
    simp only [h4 b hb]
    rw [sum_adds3, zero_add]

variable [IsStrictOrderedRing G]

/-- **C135** (drift, bounds): along an axis on which no trajectory goes backward, the drift is between 0 and the mean
displacement. -/
theorem C135_drift_bounds_partial {D : DynParts G} {sel : List Nat} {t0 t1 : Nat} {u : Nat → Coord G}
    (h2 : 2 ≤ sel.length) (hu : ∀ tr ∈ sel, getDiff D tr t0 tr t1 = .ok (u tr)) (hpos : ∀ tr ∈ sel, ∀ a, 0 ≤ u tr a)
    (d : Coord G) (hd : DriftEnds D sel t0 t1 d) (a : Fin 3) :
    0 ≤ d a ∧ d a ≤ (sel.map (fun tr => u tr a)).sum / (sel.length : G) := by
  unfold DriftEnds at hd
  rw [if_neg (by omega), driftIters_eq hu] at hd
  obtain ⟨iters, mem, hi, he, rfl⟩ := hd
  cases hi
  obtain ⟨h3, h4, -⟩ := race_bounds 0 _ (by
    intro l hl x hx
    obtain ⟨tr, htr, rfl⟩ := List.mem_map.1 hl
    simp only [adds3, List.mem_cons, List.not_mem_nil, or_false] at hx
    rcases hx with rfl | rfl | rfl <;> exact hpos tr htr _) (fun _ => 0) mem he a
  rw [sum_adds3, zero_add] at h3
  have hn : (0 : G) ≤ sel.length := Nat.cast_nonneg _
  exact ⟨div_nonneg h4 hn, div_le_div_of_nonneg_right h3 hn⟩

theorem msdIters_eq {D : DynParts G} {sel : List Nat} {t0 t1 t3 Dt : Nat} {x : Nat → Nat → Coord G}
    (hx : Places D sel t0 (t1 + t3 - 1) x) (hD : t0 + Dt ≤ t1) :
    msdIters D sel t0 t3 Dt
      = .ok ((List.range t3).map (fun s => [((), sumSq sel x (t0 + s) (t0 + s + Dt))])) := by
  apply TreeIndex.mapM_ok_of
  intro s hs
  rw [List.mem_range] at hs
  rw [getSD_sumSq hx (by omega) (by omega) (by omega) (by omega), ok_bind, pure_eq_ok]

omit [LinearOrder G] [IsStrictOrderedRing G] in
theorem sum_unit (f : Nat → G) (n : Nat) :
    (((List.range n).map (fun s => [((), f s)])).map (sumAt ())).sum = ∑ s ∈ Finset.range n, f s := by
  induction n with
  | zero => simp
  | succ n ih => rw [List.range_succ, Finset.sum_range_succ, ← ih]; simp

/-- **C135** (mean square displacement over `t3` starts, bounds): whatever the threads do, the result at each lag is
between 0 and the mean; it is the mean when there is a single start, which is what `getMSD(t0, t1, t2)` asks for. -/
theorem C135_msd_bounds_partial {D : DynParts G} {sel : List Nat} {t0 t1 t3 : Nat} {x : Nat → Nat → Coord G}
    (hx : Places D sel t0 (t1 + t3 - 1) x) (h01 : t0 ≤ t1) (l : List G) (hl : MsdEnds D sel t0 t1 t3 l) (d : Nat) (hd : d ≤ t1 - t0) :
    ∃ y, l[d]? = some y ∧ 0 ≤ y ∧
      y ≤ (∑ s ∈ Finset.range t3, sumSq sel x (t0 + s) (t0 + s + d)) / (t3 * sel.length) ∧
      (t3 = 1 → y = (∑ s ∈ Finset.range t3, sumSq sel x (t0 + s) (t0 + s + d)) / (t3 * sel.length)) := by
  have hn : (0 : G) ≤ t3 * sel.length := mul_nonneg (Nat.cast_nonneg _) (Nat.cast_nonneg _)
  obtain ⟨hlen, h0, h⟩ := hl
  by_cases hd0 : d = 0
  · subst hd0
    have hz : ∑ s ∈ Finset.range t3, sumSq sel x (t0 + s) (t0 + s + 0) = 0 := by
      apply Finset.sum_eq_zero
      intro s _
      unfold sumSq
      apply List.sum_eq_zero
      intro y hy
      obtain ⟨tr, -, rfl⟩ := List.mem_map.1 hy
      simp [sqDist]
    refine ⟨0, h0, le_refl _, ?_, ?_⟩
    · rw [hz, zero_div]
    · intro _; rw [hz, zero_div]
  · obtain ⟨iters, mem, hi, he, hy⟩ := h d (by omega) hd
    rw [msdIters_eq hx (by omega)] at hi
    cases hi
    refine ⟨_, hy, ?_⟩
    obtain ⟨h3, h4, -⟩ := race_bounds 0 _ (by
      intro l hl y hy
      obtain ⟨s, -, rfl⟩ := List.mem_map.1 hl
      simp only [List.mem_singleton] at hy
      subst hy
      exact sumSq_nonneg _ _ _ _) (fun _ => 0) mem he ()
    rw [sum_unit, zero_add] at h3
    refine ⟨div_nonneg h4 hn, div_le_div_of_nonneg_right h3 hn, ?_⟩
    rintro rfl
    have := race_single 0 _ (fun _ => 0) mem he () 0 [((), sumSq sel x (t0 + 0) (t0 + 0 + d))] (by simp) (by
      intro q l' hq hl'
      have : q < 1 := by simpa using (List.getElem?_eq_some_iff.1 hl').1
      omega)
    rw [this]
    simp

/-- **C135** (mean square displacement over `t3` starts, counterexample): the result at a lag can be the square
displacement from a single start divided by the number of starts and of trajectories, whichever the start. -/
theorem C135_msd_counterexample {D : DynParts G} {sel : List Nat} {t0 t1 t3 : Nat} {x : Nat → Nat → Coord G}
    (hx : Places D sel t0 (t1 + t3 - 1) x) (d : Nat) (hd1 : 1 ≤ d) (hd : d ≤ t1 - t0) (s : Nat)
    (hs : s < t3) :
    ∃ l, MsdEnds D sel t0 t1 t3 l ∧ l[d]? = some (sumSq sel x (t0 + s) (t0 + s + d) / (t3 * sel.length)) := by
  have hex : ∀ e, ∃ mem : Unit → G, Ends 0 (((List.range t3).map
      (fun s => [((), sumSq sel x (t0 + s) (t0 + s + e))])).map incrs) (fun _ => 0) mem ∧
      mem () = sumSq sel x (t0 + s) (t0 + s + e) := by
    intro e
    have hi : ((List.range t3).map (fun s => [((), sumSq sel x (t0 + s) (t0 + s + e))]))[s]?
        = some [((), sumSq sel x (t0 + s) (t0 + s + e))] := by simp [hs]
    obtain ⟨mem, he, h3, -⟩ := ends_lost 0 _ (fun _ => 0) () (fun q => decide (q = s)) s _ hi (by simp)
      ⟨_, List.mem_singleton.2 rfl, rfl⟩
    rw [share_single _ s _ hi] at h3
    exact ⟨mem, he, by rw [h3]; simp⟩
  choose mem h1 h2 using hex
  refine ⟨tab (t1 - t0 + 1) (fun e => if e = 0 then 0 else mem e () / (t3 * sel.length)), ⟨tab_length _ _, ?_, ?_⟩, ?_⟩
  · rw [← getR_ok, getR_tab (by omega), if_pos rfl]
  · intro e he1 he
    refine ⟨_, mem e, msdIters_eq hx (by omega), h1 e, ?_⟩
    rw [← getR_ok, getR_tab (by omega), if_neg (by omega)]
  · rw [← getR_ok, getR_tab (by omega), if_neg (by omega), h2]

/-- **C135** (one thread): the mean square displacement of the sequential model is a possible result. -/
theorem C135_msd_sequential {D : DynParts G} {sel : List Nat} (hne : sel ≠ []) {t0 t1 t3 : Nat} (h3 : 0 < t3)
    {x : Nat → Nat → Coord G} (hx : Places D sel t0 (t1 + t3 - 1) x) :
    ∃ l, getMSDOf D sel t0 t1 t3 = .ok l ∧ MsdEnds D sel t0 t1 t3 l := by
  obtain ⟨l, h1, h2, h0, -, h⟩ := C42_starts hne h3 hx
  refine ⟨l, h1, h2, h0, ?_⟩
  intro e he1 he
  refine ⟨_, _, msdIters_eq hx (by omega), ends_sum 0 _ (fun _ => 0), ?_⟩
  rw [h e he, sum_unit, zero_add]

/-- **C135** (a single start): the result does not depend on the threads. -/
theorem C135_msd_single {D : DynParts G} {sel : List Nat} (hne : sel ≠ []) {t0 t1 : Nat} (h01 : t0 ≤ t1)
    {x : Nat → Nat → Coord G} (hx : Places D sel t0 t1 x) (l : List G) :
    MsdEnds D sel t0 t1 1 l ↔ getMSDOf D sel t0 t1 1 = .ok l := by
  obtain ⟨l', h1, h2, -, -, h⟩ := C42_starts (t3 := 1) hne (by omega) (x := x) hx
  have hl' : ∀ k, MsdEnds D sel t0 t1 1 k → k = l' := by
    intro k hk
    apply List.ext_getElem?
    intro d
    by_cases hd : d ≤ t1 - t0
    · obtain ⟨y, hy, -, -, hy'⟩ := C135_msd_bounds_partial (t3 := 1) hx h01 k hk d hd
      rw [hy, h d hd, hy' rfl]
    · have := hk.1
      rw [List.getElem?_eq_none (by omega), List.getElem?_eq_none (by omega)]
  constructor
  · intro hl
    rw [h1, hl' l hl]
  · intro hl
    obtain ⟨k, hk, hk'⟩ := C135_msd_sequential (t3 := 1) hne (by omega) hx
    rw [hk] at hl
    cases hl
    exact hk'

/-- The additions of `get_MSD_NGP` for an interval. -/
def ngpRow (sel : List Nat) (u : Nat → G) (lag : Nat) : List (FilmCell × G) :=
  (sel.map (fun tr => [(FilmCell.msd lag, u tr), (FilmCell.ngp lag, u tr * u tr)])).flatten ++ [(FilmCell.nb lag, 1)]

/-- The additions of `get_MSD_NGP` for all the intervals that begin at the same time. -/
def ngpRows (sel : List Nat) (u : Nat → G) (t1 start : Nat) : List (FilmCell × G) :=
  ((List.range' (start + 1) (t1 - start)).map (fun stop => ngpRow sel u (stop - start))).flatten

theorem ngpIter_eq {D : DynParts G} {sel : List Nat} {t0 t1 : Nat} {x : Nat → Nat → Coord G}
    (hx : ∀ tr ∈ sel, at_ D tr t0 = .ok (x tr t0) ∧ at_ D tr t1 = .ok (x tr t1)) (start : Nat) :
    ngpIter D sel t0 t1 start = .ok (ngpRows sel (fun tr => sqDist (x tr t1) (x tr t0)) t1 start) := by
  unfold ngpIter
  rw [TreeIndex.mapM_ok_of _ (fun stop => ngpRow sel (fun tr => sqDist (x tr t1) (x tr t0)) (stop - start)), ok_bind,
    pure_eq_ok]
  · rfl
  · intro stop _
    rw [TreeIndex.mapM_ok_of _ (fun tr => [(FilmCell.msd (stop - start), sqDist (x tr t1) (x tr t0)),
      (FilmCell.ngp (stop - start), sqDist (x tr t1) (x tr t0) * sqDist (x tr t1) (x tr t0))]), ok_bind, pure_eq_ok]
    · rfl
    · intro tr htr
      unfold getDiff
      rw [(hx tr htr).2, ok_bind, (hx tr htr).1, ok_bind]
      simp only [pure_eq_ok, ok_bind, dot3_eq_sqDist]

omit [LinearOrder G] [IsStrictOrderedRing G] in
theorem sumAt_ngpRow (sel : List Nat) (u : Nat → G) (lag d : Nat) :
    sumAt (.msd d) (ngpRow sel u lag) = (if lag = d then (sel.map u).sum else 0) ∧
    sumAt (.ngp d) (ngpRow sel u lag) = (if lag = d then (sel.map (fun tr => u tr * u tr)).sum else 0) ∧
    sumAt (.nb d) (ngpRow sel u lag) = (if lag = d then 1 else 0) := by
  unfold ngpRow
  simp only [sumAt_append, sumAt_flatten, List.map_map]
  by_cases h : lag = d
  · refine ⟨?_, ?_, ?_⟩ <;> simp [h, Function.comp_def]
  · refine ⟨?_, ?_, ?_⟩ <;> simp [h, Function.comp_def]

omit [LinearOrder G] [IsStrictOrderedRing G] in
theorem sum_lag (X : G) (t1 start d : Nat) (hd : 1 ≤ d) :
    ((List.range' (start + 1) (t1 - start)).map (fun stop => if stop - start = d then X else 0)).sum
      = if start + d ≤ t1 then X else 0 := by
  rw [List.range'_eq_map_range, List.map_map]
  have : (List.range (t1 - start)).map ((fun stop => if stop - start = d then X else 0) ∘ fun x => start + 1 + x)
      = (List.range (t1 - start)).map (fun i => if i = d - 1 then X else 0) := by
    apply List.map_congr_left
    intro i _
    show (if start + 1 + i - start = d then X else 0) = _
    exact if_congr (by omega) rfl rfl
  rw [this]
  have key : ∀ n (f : Nat → G), ((List.range n).map f).sum = ∑ i ∈ Finset.range n, f i := by
    intro n f
    induction n with
    | zero => simp
    | succ n ih => rw [List.range_succ, Finset.sum_range_succ, ← ih]; simp
  rw [key, Finset.sum_ite_eq']
  exact if_congr (by rw [Finset.mem_range]; omega) rfl rfl

omit [LinearOrder G] [IsStrictOrderedRing G] in
theorem sum_starts (X : G) (t0 t1 d : Nat) (hd1 : 1 ≤ d) (hd : d ≤ t1 - t0) :
    ((List.range' t0 (t1 - t0)).map (fun start => if start + d ≤ t1 then X else 0)).sum
      = ((t1 - t0 + 1 - d : Nat) : G) * X := by
  have key : ∀ n m, m ≤ n → ((List.range n).map (fun i => if i < m then X else 0)).sum = (m : G) * X := by
    intro n
    induction n with
    | zero => intro m hm; have : m = 0 := by omega
              subst this; simp
    | succ n ih =>
      intro m hm
      rw [List.range_succ, List.map_append, List.sum_append]
      by_cases h : m ≤ n
      · rw [ih m h]; simp [h]
      · have : m = n + 1 := by omega
        subst this
        have : (List.range n).map (fun i => if i < n + 1 then X else 0)
            = (List.range n).map (fun i => if i < n then X else 0) := by
          apply List.map_congr_left
          intro i hi
          rw [List.mem_range] at hi
          exact if_congr (by omega) rfl rfl
        rw [this, ih n (le_refl _)]
        push_cast
        simp
        ring
  rw [List.range'_eq_map_range, List.map_map, ← key (t1 - t0) _ (by omega)]
  congr 1
  apply List.map_congr_left
  intro i _
  show (if t0 + i + d ≤ t1 then X else 0) = _
  exact if_congr (by omega) rfl rfl

omit [LinearOrder G] [IsStrictOrderedRing G] in
/-- What a loop of `get_MSD_NGP` adds to each cell. -/
theorem sumAt_ngpRows (sel : List Nat) (u : Nat → G) (t1 start d : Nat) (hd1 : 1 ≤ d) :
    sumAt (.msd d) (ngpRows sel u t1 start) = (if start + d ≤ t1 then (sel.map u).sum else 0) ∧
    sumAt (.ngp d) (ngpRows sel u t1 start) = (if start + d ≤ t1 then (sel.map (fun tr => u tr * u tr)).sum else 0) ∧
    sumAt (.nb d) (ngpRows sel u t1 start) = (if start + d ≤ t1 then 1 else 0) := by
  unfold ngpRows
  simp only [sumAt_flatten, List.map_map, Function.comp_def]
  refine ⟨?_, ?_, ?_⟩
  · simp only [(sumAt_ngpRow sel u _ d).1]; exact sum_lag _ _ _ _ hd1
  · simp only [(sumAt_ngpRow sel u _ d).2.1]; exact sum_lag _ _ _ _ hd1
  · simp only [(sumAt_ngpRow sel u _ d).2.2]; exact sum_lag _ _ _ _ hd1

theorem ngpIters_eq {D : DynParts G} {sel : List Nat} {t0 t1 : Nat} {x : Nat → Nat → Coord G}
    (hx : ∀ tr ∈ sel, at_ D tr t0 = .ok (x tr t0) ∧ at_ D tr t1 = .ok (x tr t1)) :
    (List.range' t0 (t1 - t0)).mapM (ngpIter D sel t0 t1)
      = .ok ((List.range' t0 (t1 - t0)).map (ngpRows sel (fun tr => sqDist (x tr t1) (x tr t0)) t1)) :=
  TreeIndex.mapM_ok_of _ _ _ (fun s _ => ngpIter_eq hx s)

omit [LinearOrder G] [IsStrictOrderedRing G] in
theorem sumAt_ngpRows_zero (sel : List Nat) (u : Nat → G) (t1 start : Nat) :
    sumAt (.msd 0) (ngpRows sel u t1 start) = 0 ∧ sumAt (.ngp 0) (ngpRows sel u t1 start) = 0 ∧
    sumAt (.nb 0) (ngpRows sel u t1 start) = 0 := by
  unfold ngpRows
  simp only [sumAt_flatten, List.map_map, Function.comp_def]
  have h : ∀ stop ∈ List.range' (start + 1) (t1 - start), stop - start ≠ 0 := by
    intro stop hs
    rw [List.mem_range'_1] at hs
    omega
  refine ⟨?_, ?_, ?_⟩
  · apply List.sum_eq_zero
    intro y hy
    obtain ⟨stop, hs, rfl⟩ := List.mem_map.1 hy
    rw [(sumAt_ngpRow sel u _ 0).1, if_neg (h stop hs)]
  · apply List.sum_eq_zero
    intro y hy
    obtain ⟨stop, hs, rfl⟩ := List.mem_map.1 hy
    rw [(sumAt_ngpRow sel u _ 0).2.1, if_neg (h stop hs)]
  · apply List.sum_eq_zero
    intro y hy
    obtain ⟨stop, hs, rfl⟩ := List.mem_map.1 hy
    rw [(sumAt_ngpRow sel u _ 0).2.2, if_neg (h stop hs)]

/-- **C135** (one thread): the result of the sequential model of `get_MSD_NGP` is a possible result. -/
theorem C135_ngp_sequential {D : DynParts G} {sel : List Nat} (hne : sel ≠ []) {t0 t1 : Nat}
    (hr : D.radius ≠ 0) {x : Nat → Nat → Coord G}
    (hx : ∀ tr ∈ sel, at_ D tr t0 = .ok (x tr t0) ∧ at_ D tr t1 = .ok (x tr t1)) :
    ∃ l, getMsdNgp D sel t0 t1 0 = .ok l ∧ NgpEnds D sel t0 t1 l := by
  have hlen : (sel.length : G) ≠ 0 := by
    have : sel.length ≠ 0 := by simpa using hne
    exact_mod_cast this
  have h2r : (2 * D.radius) ^ 2 ≠ 0 := by simp [hr]
  refine ⟨_, getMsdNgp_eq hne hr hx, _, _, ngpIters_eq hx, ends_sum 0 _ _, ?_⟩
  apply tab_congr
  intro d hd
  simp only [List.map_map, Function.comp_def]
  by_cases hd0 : d = 0
  · subst hd0
    simp only [(sumAt_ngpRows_zero sel _ t1 _).1, (sumAt_ngpRows_zero sel _ t1 _).2.1,
      (sumAt_ngpRows_zero sel _ t1 _).2.2]
    simp [quot, hr, hlen]
  · rw [if_neg hd0]
    simp only [(sumAt_ngpRows sel _ t1 _ d (by omega : 1 ≤ d)).1, (sumAt_ngpRows sel _ t1 _ d (by omega : 1 ≤ d)).2.1,
      (sumAt_ngpRows sel _ t1 _ d (by omega : 1 ≤ d)).2.2]
    rw [sum_starts _ _ _ _ (by omega) (by omega), sum_starts _ _ _ _ (by omega) (by omega),
      sum_starts _ _ _ _ (by omega) (by omega)]
    have hq : (sel.map (fun tr => sqDist (x tr t1) (x tr t0) * sqDist (x tr t1) (x tr t0))).sum
        = sumQuartic sel x t0 t1 := by simp only [sumQuartic, sq]
    have hs : (sel.map (fun tr => sqDist (x tr t1) (x tr t0))).sum = sumSq sel x t0 t1 := rfl
    rw [hq, hs]
    have hk : ((t1 - t0 + 1 - d : Nat) : G) ≠ 0 := by
      have : t1 - t0 + 1 - d ≠ 0 := by omega
      exact_mod_cast this
    generalize ((t1 - t0 + 1 - d : Nat) : G) = k at hk
    have e1 : (FilmCell.msd d = FilmCell.nb 0) = False := by simp
    have e2 : (FilmCell.ngp d = FilmCell.nb 0) = False := by simp
    have e3 : (FilmCell.nb d = FilmCell.nb 0) = False := by simp [hd0]
    simp only [e1, e2, e3, if_false, zero_add, mul_one]
    ext1
    · have h1 : k * (2 * D.radius) ^ 2 * (sel.length : G) ≠ 0 := mul_ne_zero (mul_ne_zero hk h2r) hlen
      simp only [quot, if_neg h1]
      congr 1
      rw [div_eq_div_iff (mul_ne_zero h2r hlen) h1]
      ring
    · simp only [quot]
      by_cases hS : sumSq sel x t0 t1 = 0
      · simp [hS]
      · have h1 : 3 * (k * sumSq sel x t0 t1) * (k * sumSq sel x t0 t1) ≠ 0 := by
          have := mul_ne_zero hk hS
          exact mul_ne_zero (mul_ne_zero (by norm_num) this) this
        have h2 : 3 * sumSq sel x t0 t1 * sumSq sel x t0 t1 ≠ 0 :=
          mul_ne_zero (mul_ne_zero (by norm_num) hS) hS
        rw [if_neg h1, if_neg h2]
        simp only [Option.map_some]
        congr 1
        field_simp

/-- **C135** (`get_MSD_NGP`, counterexample): a lost update of the count of the intervals. The mean square displacement
at any lag can come out multiplied by the number of intervals of this lag. -/
theorem C135_ngp_counterexample {D : DynParts G} {sel : List Nat} (hne : sel ≠ []) {t0 t1 : Nat}
    (hr : D.radius ≠ 0) {x : Nat → Nat → Coord G}
    (hx : ∀ tr ∈ sel, at_ D tr t0 = .ok (x tr t0) ∧ at_ D tr t1 = .ok (x tr t1)) (d : Nat) (hd1 : 1 ≤ d)
    (hd : d ≤ t1 - t0) :
    ∃ l e : List (Option G × Option G), NgpEnds D sel t0 t1 l ∧ getMsdNgp D sel t0 t1 0 = .ok e ∧
      ∃ y z, e[d]?.map Prod.fst = some (some y) ∧ l[d]?.map Prod.fst = some (some z) ∧
        z = (t1 - t0 + 1 - d : Nat) * y := by
  set u : Nat → G := fun tr => sqDist (x tr t1) (x tr t0) with hu
  have h0 : ((List.range' t0 (t1 - t0)).map (ngpRows sel u t1))[0]? = some (ngpRows sel u t1 t0) := by
    rw [List.getElem?_map, List.getElem?_range' (by omega)]
    simp
  obtain ⟨mem, he, h3, h4⟩ := ends_lost 0 _ (fun c : FilmCell => if c = .nb 0 then (1 : G) else 0) (.nb d)
    (fun q => decide (q = 0)) 0 _ h0 (by simp) (by
      refine ⟨(.nb d, 1), ?_, rfl⟩
      unfold ngpRows
      rw [List.mem_flatten]
      refine ⟨ngpRow sel u d, List.mem_map.2 ⟨t0 + d, ?_, by simp⟩, by simp [ngpRow]⟩
      rw [List.mem_range'_1]
      omega)
  rw [share_single _ 0 _ h0] at h3
  have hnb : mem (.nb d) = 1 := by
    rw [h3]
    have h1 : d ≠ 0 := by omega
    have h2 : t0 + d ≤ t1 := by omega
    simp [(sumAt_ngpRows sel u t1 t0 d hd1).2.2, h1, h2]
  have hmsd : mem (.msd d) = ((t1 - t0 + 1 - d : Nat) : G) * (sel.map u).sum := by
    rw [h4 _ (by simp), List.map_map]
    simp only [Function.comp_def, (sumAt_ngpRows sel u t1 _ d hd1).1]
    rw [sum_starts _ _ _ _ hd1 hd]
    simp
  have hlen : (sel.length : G) ≠ 0 := by
    have : sel.length ≠ 0 := by simpa using hne
    exact_mod_cast this
  have h2r : (2 * D.radius) ^ 2 ≠ 0 := by simp [hr]
  refine ⟨_, _, ⟨_, mem, ngpIters_eq hx, he, rfl⟩, getMsdNgp_eq hne hr hx,
    sumSq sel x t0 t1 / ((2 * D.radius) ^ 2 * sel.length),
    mem (.msd d) / (mem (.nb d) * (2 * D.radius) ^ 2 * sel.length), ?_, ?_, ?_⟩
  · have : (tab (t1 - t0 + 1) (fun d => if d = 0 then (some (0 : G), none) else
      (some (sumSq sel x t0 t1 / ((2 * D.radius) ^ 2 * sel.length)),
       (quot (sel.length : G) (3 * sumSq sel x t0 t1 * sumSq sel x t0 t1)).map
        (sumQuartic sel x t0 t1 * ·))))[d]? = some _ := getR_ok.1 (getR_tab (by omega))
    rw [this, if_neg (by omega)]
    rfl
  · rw [List.getElem?_map, List.getElem?_range (by omega)]
    simp only [Option.map_some]
    rw [hnb, quot, if_neg]
    simp [hr, hlen]
  · rw [hnb, hmsd, one_mul, mul_div_assoc]
    rfl

/-- The hypotheses of the theorems above, for two particles in three frames. The mean square displacement at lag 1
between the first and the last frame is counted over 2 intervals: it can come out twice too large. -/
example : ∃ l e : List (Option ℚ × Option ℚ), NgpEnds exTwo [0, 1] 0 2 l ∧ getMsdNgp exTwo [0, 1] 0 2 0 = .ok e ∧
    ∃ y z, e[1]?.map Prod.fst = some (some y) ∧ l[1]?.map Prod.fst = some (some z) ∧ z = 2 * y := by
  have h : ∀ tr ∈ [0, 1], ∀ t ≤ 2, at_ exTwo tr t = .ok (([[![0, 0, 0], ![3, 5, 0], ![5, 0, 0]],
      [![0, 5, 0], ![1, 0, 0], ![4, 5, 0]]][tr]?.getD [])[t]?.getD 0) := by decide +kernel
  obtain ⟨l, e, h1, h2, y, z, h3, h4, h5⟩ := C135_ngp_counterexample (D := exTwo) (sel := [0, 1]) (t0 := 0) (t1 := 2)
    (by simp) (by decide +kernel) (x := fun tr t => ([[![0, 0, 0], ![3, 5, 0], ![5, 0, 0]],
      [![0, 5, 0], ![1, 0, 0], ![4, 5, 0]]][tr]?.getD [])[t]?.getD 0)
    (fun tr htr => ⟨h tr htr 0 (by omega), h tr htr 2 (by omega)⟩) 1 (by omega) (by omega)
  exact ⟨l, e, h1, h2, y, z, h3, h4, by simpa using h5⟩

/-- The two particles move by 5 and 4 along `x` between the first and the last frame: the drift can be 5/2 or 2
instead of 9/2. -/
example : ∃ d e, DriftEnds exTwo [0, 1] 0 2 d ∧ getDriftOf exTwo [0, 1] 0 2 = .ok e ∧ d 0 = 2 ∧ e 0 = 9 / 2 := by
  have h : ∀ tr ∈ [0, 1], getDiff exTwo tr 0 tr 2 = .ok ([![5, 0, 0], ![4, 0, 0]][tr]?.getD 0) := by
    have h : ∀ tr ∈ [0, 1], at_ exTwo tr 0 = .ok ([![0, 0, 0], ![0, 5, 0]][tr]?.getD 0) ∧
        at_ exTwo tr 2 = .ok ([![5, 0, 0], ![4, 5, 0]][tr]?.getD 0) := by decide +kernel
    intro tr htr
    unfold getDiff
    rw [(h tr htr).2, ok_bind, (h tr htr).1, ok_bind, pure_eq_ok]
    simp only [List.mem_cons, List.not_mem_nil, or_false] at htr
    refine congrArg Except.ok ?_
    funext a
    rcases htr with rfl | rfl <;> (match a with | 0 | 1 => norm_num | 2 => exact sub_zero (0 : ℚ))
  obtain ⟨d, e, h1, h2, h3, -⟩ := C135_drift_counterexample (D := exTwo) (sel := [0, 1]) (t0 := 0) (t1 := 2)
    (u := fun tr => [![5, 0, 0], ![4, 0, 0]][tr]?.getD 0) (by simp) h 1 (by simp) 0
  refine ⟨d, e, h1, h2, ?_, ?_⟩
  · rw [h3]; norm_num
  · rw [getDriftOf_eq (by simp) h] at h2
    cases h2
    norm_num

end Parallel

end Colloids
