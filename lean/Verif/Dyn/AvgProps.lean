import Verif.Dyn.AvgModel
import Verif.Dyn.MsdProps
import Verif.RStar.Lemmas
import Verif.Traj.Props

/-! # C66-C68: averages over time, bounds of trajectories, drift read from a file -/

namespace Colloids
namespace Dyn

variable {G : Type} [Field G] [LinearOrder G]

/-! ## C66 -/

omit [Field G] [LinearOrder G] in
theorem lookup_mapSet (k : Nat) (v : G) (l : List (Nat × G)) (k' : Nat) :
    (mapSet k v l).lookup k' = if k' = k then some v else l.lookup k' := by
  induction l with
  | nil =>
    unfold mapSet
    by_cases h : k' = k
    · subst h; simp
    · have : (k' == k) = false := by simpa using h
      rw [if_neg h, List.lookup_cons, this]
  | cons x l ih =>
    obtain ⟨k1, v1⟩ := x
    unfold mapSet
    split
    · by_cases h : k' = k
      · subst h; simp
      · rw [List.lookup_cons, if_neg h]
        have : (k' == k) = false := by simpa using h
        rw [this]
    · split
      · rename_i h1
        subst h1
        by_cases h : k' = k
        · subst h; simp
        · have : (k' == k) = false := by simpa using h
          rw [if_neg h, List.lookup_cons, List.lookup_cons, this]
      · rename_i h1
        rw [List.lookup_cons, List.lookup_cons, ih]
        by_cases h2 : k' = k1
        · subst h2
          have hk : ¬ k' = k := fun h => h1 h.symm
          simp only [if_neg hk]
        · have : (k' == k1) = false := by simpa using h2
          rw [this]

/-- Trajectory `tr` exists at the `n` times from `a` on. -/
def Spans (D : DynParts G) (tr a n : Nat) : Prop := ∀ t, a ≤ t → t < a + n → Exists D tr t

/-- The value given to the position of trajectory `tr` at time `t`. -/
def ValueAt (D : DynParts G) (values : List (List (Nat × G))) (tr t : Nat) (x : G) : Prop :=
  ∃ p m, D.trajectories.convert t tr = .ok p ∧ values[t]? = some m ∧ m.lookup p = some x

omit [Field G] [LinearOrder G] in
theorem span_iff {D : DynParts G} (hw : Wf D) {tr : Nat} {T : Traj} (hT : D.trajectories.trajs[tr]? = some T)
    {a n : Nat} (hn : 0 < n) : T.span a (a + n - 1) = true ↔ Spans D tr a n := by
  have hm := List.mem_of_getElem? hT
  have hb : T.start + T.steps.length ≤ 2 ^ 64 := le_trans (hw.fits T hm) hw.size
  obtain ⟨-, h2, -, h4⟩ := C05_queries_partial T (hw.nonempty T hm) hb
  rw [h4 a (a + n - 1) (by omega)]
  have he : ∀ t, T.exist t = true ↔ Exists D tr t := by
    intro t
    rw [h2]
    constructor
    · intro h; exact ⟨T, hT, h⟩
    · rintro ⟨T', hT', h⟩
      rw [hT] at hT'
      cases hT'
      exact h
  constructor
  · intro h t h1 h2'
    exact (he t).1 (h t h1 (by omega))
  · intro h t h1 h2'
    exact (he t).2 (h t h1 (by omega))

/-- The sum over a window. -/
theorem addOver_eq {D : DynParts G} {values : List (List (Nat × G))} (missing : Fault) {tr : Nat} {T : Traj}
    (hT : D.trajectories.trajs[tr]? = some T) {a n : Nat} {f : Nat → G}
    (hf : ∀ t, a ≤ t → t < a + n → ValueAt D values tr t (f t)) (v0 : G) :
    addOver values missing T a n v0 = .ok (v0 + ∑ t ∈ Finset.range n, f (a + t)) := by
  unfold addOver
  induction n with
  | zero => simp [pure_eq_ok]
  | succ n ih =>
    rw [List.range'_concat, foldlM_append_ok]
    refine ⟨_, ih (fun t h1 h2 => hf t h1 (by omega)), ?_⟩
    simp only [List.foldlM_cons, List.foldlM_nil, Nat.one_mul]
    obtain ⟨p, m, h1, h2, h3⟩ := hf (a + n) (by omega) (by omega)
    have h1' : T.at_ (a + n) = .ok p := by
      unfold TrajIndex.convert at h1
      rw [getR_ok.2 hT, ok_bind] at h1
      exact h1
    rw [getR_ok.2 h2, ok_bind, h1', ok_bind]
    simp only [h3]
    rw [pure_eq_ok, ok_bind, pure_eq_ok, Finset.sum_range_succ, add_assoc]

/-- One window, when all values exist. -/
theorem window_eq {D : DynParts G} (hw : Wf D) {values : List (List (Nat × G))} (missing : Fault) {a n : Nat}
    (hn : 0 < n) {f : Nat → Nat → G} : ∀ (sel : List Nat), sel.Nodup → (∀ tr ∈ sel, tr < D.trajectories.trajs.length) →
    (∀ tr ∈ sel, Spans D tr a n → ∀ t, a ≤ t → t < a + n → ValueAt D values tr t (f tr t)) →
    ∃ m, sel.foldlM (averageStep D values missing a n) [] = .ok m ∧
      ∀ tr y, m.lookup tr = some y ↔ tr ∈ sel ∧ Spans D tr a n ∧
        y = (∑ t ∈ Finset.range n, f tr (a + t)) / n := by
  intro sel
  induction sel using List.reverseRecOn with
  | nil => intro _ _ _; exact ⟨[], rfl, by simp⟩
  | append_singleton l s ih =>
    intro hnd hr hv
    rw [List.nodup_append'] at hnd
    obtain ⟨hnd, -, hdis⟩ := hnd
    obtain ⟨m, h1, h2⟩ := ih hnd (fun tr h => hr tr (by simp [h])) (fun tr h => hv tr (by simp [h]))
    have hs : s ∉ l := fun h => hdis h (by simp)
    have hT : D.trajectories.trajs[s]? = some (D.trajectories.trajs[s]'(hr s (by simp))) := by simp
    set T := D.trajectories.trajs[s]'(hr s (by simp)) with hTdef
    have hnone : m.lookup s = none := by
      cases hc : m.lookup s with
      | none => rfl
      | some y => exact absurd ((h2 s y).1 hc).1 hs
    by_cases hsp : Spans D s a n
    · refine ⟨mapSet s ((∑ t ∈ Finset.range n, f s (a + t)) / n) m, ?_, ?_⟩
      · rw [foldlM_append_ok]
        refine ⟨m, h1, ?_⟩
        simp only [List.foldlM_cons, List.foldlM_nil]
        unfold averageStep
        rw [getR_ok.2 hT, ok_bind, if_pos ((span_iff hw hT hn).2 hsp),
          addOver_eq missing hT (fun t h1 h2 => hv s (by simp) hsp t h1 h2), ok_bind, hnone]
        simp only [Option.getD_none, zero_add]
        rfl
      · intro tr y
        rw [lookup_mapSet]
        by_cases h : tr = s
        · subst h
          rw [if_pos rfl]
          simp [hsp, eq_comm]
        · rw [if_neg h, h2]
          simp [h]
    · refine ⟨m, ?_, ?_⟩
      · rw [foldlM_append_ok]
        refine ⟨m, h1, ?_⟩
        simp only [List.foldlM_cons, List.foldlM_nil]
        unfold averageStep
        rw [getR_ok.2 hT, ok_bind, if_neg (fun h => hsp ((span_iff hw hT hn).1 h))]
        rfl
      · intro tr y
        rw [h2]
        by_cases h : tr = s
        · subst h
          simp [hs, hsp]
        · simp [h]

/-- C66. `makeTimeAverage` cuts the time in successive windows of `n` steps. For each window, exactly the
selected trajectories that exist during the whole window get a value, the mean of the values of their
positions. Missing: selections with repetitions, see `C66_repeated_counterexample`. -/
theorem C66_blocks_partial {D : DynParts G} (hw : Wf D) {values : List (List (Nat × G))} {n : Nat} (hn : 0 < n)
    {sel : List Nat} (hnd : sel.Nodup) (hr : ∀ tr ∈ sel, tr < D.trajectories.trajs.length) {f : Nat → Nat → G}
    (hv : ∀ tr ∈ sel, ∀ t, Exists D tr t → ValueAt D values tr t (f tr t)) :
    ∃ l, makeTimeAverage D sel n values = .ok l ∧ l.length = max (D.positions.length / n) 1 ∧
      ∀ (k : Nat) (m : List (Nat × G)), l[k]? = some m → ∀ tr y, m.lookup tr = some y ↔
        tr ∈ sel ∧ Spans D tr (k * n) n ∧ y = (∑ t ∈ Finset.range n, f tr (k * n + t)) / n := by
  have hall := fun k => window_eq hw .ub (values := values) (a := k * n) hn sel hnd hr
    (fun tr htr hsp t h1 h2 => hv tr htr t (hsp t h1 h2))
  choose g hg1 hg2 using hall
  refine ⟨(List.range (max (D.positions.length / n) 1)).map g, ?_, by simp, ?_⟩
  · unfold makeTimeAverage
    rw [if_neg (by omega)]
    exact TreeIndex.mapM_ok_of _ _ _ (fun k _ => hg1 k)
  · intro k m hk tr y
    rw [List.getElem?_map] at hk
    obtain ⟨k', hk1, rfl⟩ := Option.map_eq_some_iff.1 hk
    obtain ⟨h, rfl⟩ := List.getElem?_eq_some_iff.1 hk1
    rw [List.getElem_range]
    exact hg2 k tr y

/-- C66. `makeSlidingTimeAverage` does the same for all the windows of `n` successive frames. -/
theorem C66_sliding_partial {D : DynParts G} (hw : Wf D) {values : List (List (Nat × G))} {n : Nat} (hn : 0 < n)
    (hlen : n ≤ values.length + 1) {sel : List Nat} (hnd : sel.Nodup)
    (hr : ∀ tr ∈ sel, tr < D.trajectories.trajs.length) {f : Nat → Nat → G}
    (hv : ∀ tr ∈ sel, ∀ t, t < values.length → Exists D tr t → ValueAt D values tr t (f tr t)) :
    ∃ l, makeSlidingTimeAverage D sel n values = .ok l ∧ l.length = values.length + 1 - n ∧
      ∀ (k : Nat) (m : List (Nat × G)), l[k]? = some m → ∀ tr y, m.lookup tr = some y ↔
        tr ∈ sel ∧ Spans D tr k n ∧ y = (∑ t ∈ Finset.range n, f tr (k + t)) / n := by
  have hall : ∀ k ∈ List.range (values.length - (n - 1)), ∃ m,
      sel.foldlM (averageStep D values .invalidArgument k n) [] = .ok m ∧
      ∀ tr y, m.lookup tr = some y ↔ tr ∈ sel ∧ Spans D tr k n ∧
        y = (∑ t ∈ Finset.range n, f tr (k + t)) / n := by
    intro k hk
    rw [List.mem_range] at hk
    exact window_eq hw .invalidArgument (values := values) (a := k) hn sel hnd hr
      (fun tr htr hsp t h1 h2 => hv tr htr t (by omega) (hsp t h1 h2))
  choose! g hg1 hg2 using hall
  refine ⟨(List.range (values.length - (n - 1))).map g, ?_, by simp; omega, ?_⟩
  · unfold makeSlidingTimeAverage
    rw [if_neg (by omega)]
    exact TreeIndex.mapM_ok_of _ _ _ hg1
  · intro k m hk tr y
    rw [List.getElem?_map] at hk
    obtain ⟨k', hk1, rfl⟩ := Option.map_eq_some_iff.1 hk
    obtain ⟨h, rfl⟩ := List.getElem?_eq_some_iff.1 hk1
    rw [List.getElem_range]
    rw [List.length_range] at h
    exact hg2 k (List.mem_range.2 h) tr y

omit [LinearOrder G] in
/-- C66. An interval longer than the series of values plus one is refused. -/
theorem C66_too_long [LinearOrder G] (D : DynParts G) (values : List (List (Nat × G))) (sel : List Nat) {n : Nat}
    (h : values.length + 1 < n) : makeSlidingTimeAverage D sel n values = .error .logicError := by
  unfold makeSlidingTimeAverage
  rw [if_pos (by omega)]
  rfl

/-- C66. A trajectory that is twice in the selection gets its mean plus the `n`th of its mean. -/
theorem C66_repeated_counterexample {D : DynParts G} (hw : Wf D) {values : List (List (Nat × G))} {n : Nat}
    (hn : 0 < n) {tr a : Nat} (hr : tr < D.trajectories.trajs.length) (missing : Fault) {f : Nat → G}
    (hsp : Spans D tr a n) (hv : ∀ t, a ≤ t → t < a + n → ValueAt D values tr t (f t)) :
    ∃ m, [tr, tr].foldlM (averageStep D values missing a n) [] = .ok m ∧
      m.lookup tr = some ((∑ t ∈ Finset.range n, f (a + t)) / n + (∑ t ∈ Finset.range n, f (a + t)) / n / n) := by
  have hT : D.trajectories.trajs[tr]? = some (D.trajectories.trajs[tr]'hr) := by simp
  refine ⟨mapSet tr (((∑ t ∈ Finset.range n, f (a + t)) / n + ∑ t ∈ Finset.range n, f (a + t)) / n)
    (mapSet tr ((∑ t ∈ Finset.range n, f (a + t)) / n) []), ?_, ?_⟩
  · simp only [List.foldlM_cons, List.foldlM_nil]
    unfold averageStep
    rw [getR_ok.2 hT, ok_bind, if_pos ((span_iff hw hT hn).2 hsp), addOver_eq missing hT hv, ok_bind,
      pure_eq_ok, ok_bind, ok_bind, if_pos ((span_iff hw hT hn).2 hsp), addOver_eq missing hT hv, ok_bind,
      lookup_mapSet, if_pos rfl]
    simp only [List.lookup_nil, Option.getD_none, Option.getD_some, zero_add, pure_eq_ok, ok_bind]
  · rw [lookup_mapSet, if_pos rfl]
    congr 1
    rw [add_div]
    ring

omit [LinearOrder G] in
theorem addOver_missing [LinearOrder G] {D : DynParts G} (hw : Wf D) {values : List (List (Nat × G))}
    (missing : Fault) {tr : Nat} {T : Traj} (hT : D.trajectories.trajs[tr]? = some T) {a n : Nat}
    (hsp : Spans D tr a n) (hlen : a + n ≤ values.length) (v0 : G) :
    (∃ y, addOver values missing T a n v0 = .ok y) ∨ addOver values missing T a n v0 = .error missing := by
  unfold addOver
  induction n with
  | zero => left; exact ⟨v0, rfl⟩
  | succ n ih =>
    rw [List.range'_concat, List.foldlM_append]
    rcases ih (fun t h1 h2 => hsp t h1 (by omega)) (by omega) with ⟨y, hy⟩ | he
    · rw [hy, ok_bind]
      simp only [List.foldlM_cons, List.foldlM_nil, Nat.one_mul]
      obtain ⟨p, hp⟩ := (exists_iff_convert hw).1 (hsp (a + n) (by omega) (by omega))
      have hp' : T.at_ (a + n) = .ok p := by
        unfold TrajIndex.convert at hp
        rw [getR_ok.2 hT, ok_bind] at hp
        exact hp
      rw [getR_of_lt (by omega), ok_bind, hp', ok_bind]
      cases (values[a + n]).lookup p with
      | none => right; rfl
      | some x => left; exact ⟨y + x, rfl⟩
    · right
      rw [he, error_bind]

theorem addOver_missing' {D : DynParts G} (hw : Wf D) {values : List (List (Nat × G))}
    (missing : Fault) {tr : Nat} {T : Traj} (hT : D.trajectories.trajs[tr]? = some T) {a n : Nat}
    (hsp : Spans D tr a n) (hlen : a + n ≤ values.length) (v0 : G) {t : Nat} (h1 : a ≤ t) (h2 : t < a + n)
    (hno : ∀ x, ¬ ValueAt D values tr t x) : addOver values missing T a n v0 = .error missing := by
  rcases addOver_missing hw missing hT hsp hlen v0 with ⟨y, hy⟩ | he
  · exfalso
    unfold addOver at hy
    rw [show n = (t - a) + (n - (t - a)) by omega, ← List.range'_append, List.foldlM_append] at hy
    obtain ⟨z, -, hz⟩ := bind_ok.1 hy
    rw [show n - (t - a) = (n - (t - a) - 1) + 1 by omega, List.range'_succ, List.foldlM_cons] at hz
    rw [show a + 1 * (t - a) = t by omega] at hz
    obtain ⟨p, hp⟩ := (exists_iff_convert hw).1 (hsp t h1 h2)
    have hp' : T.at_ t = .ok p := by
      unfold TrajIndex.convert at hp
      rw [getR_ok.2 hT, ok_bind] at hp
      exact hp
    rw [getR_of_lt (by omega), ok_bind, hp', ok_bind] at hz
    cases hl : (values[t]'(by omega)).lookup p with
    | none => simp only [hl] at hz; cases hz
    | some x => exact hno x ⟨p, _, hp, by simp, hl⟩
  · exact he

/-- C66. `makeSlidingTimeAverage` throws `invalid_argument` as soon as a selected trajectory that exists during
a whole window has no value at one of its times. -/
theorem C66_missing {D : DynParts G} (hw : Wf D) {values : List (List (Nat × G))} {n : Nat} (hn : 0 < n)
    {sel : List Nat} (hr : ∀ tr ∈ sel, tr < D.trajectories.trajs.length) {tr k t : Nat} (htr : tr ∈ sel)
    (hk : k + n ≤ values.length) (hsp : Spans D tr k n) (h1 : k ≤ t) (h2 : t < k + n)
    (hno : ∀ x, ¬ ValueAt D values tr t x) :
    makeSlidingTimeAverage D sel n values = .error .invalidArgument := by
  -- a step works or throws
  have hstep : ∀ k', k' + n ≤ values.length → ∀ tr ∈ sel, ∀ m,
      (∃ m', averageStep D values .invalidArgument k' n m tr = .ok m') ∨
      averageStep D values .invalidArgument k' n m tr = .error .invalidArgument := by
    intro k' hk' tr' htr' m
    have hT : D.trajectories.trajs[tr']? = some (D.trajectories.trajs[tr']'(hr tr' htr')) := by simp
    unfold averageStep
    rw [getR_ok.2 hT, ok_bind]
    by_cases hs : (D.trajectories.trajs[tr']'(hr tr' htr')).span k' (k' + n - 1) = true
    · rw [if_pos hs]
      rcases addOver_missing hw .invalidArgument hT ((span_iff hw hT hn).1 hs) hk' ((m.lookup tr').getD 0) with
        ⟨y, hy⟩ | he
      · left; rw [hy, ok_bind]; exact ⟨_, rfl⟩
      · right; rw [he, error_bind]
    · left
      rw [if_neg hs]; exact ⟨_, rfl⟩
  have hfold : ∀ k', k' + n ≤ values.length → ∀ l : List Nat, (∀ tr ∈ l, tr ∈ sel) → ∀ m,
      (∃ m', l.foldlM (averageStep D values .invalidArgument k' n) m = .ok m') ∨
      l.foldlM (averageStep D values .invalidArgument k' n) m = .error .invalidArgument := by
    intro k' hk' l
    induction l with
    | nil => intro _ m; left; exact ⟨m, rfl⟩
    | cons x l ih =>
      intro hl m
      rw [List.foldlM_cons]
      rcases hstep k' hk' x (hl x (by simp)) m with ⟨m', hm'⟩ | he
      · rw [hm', ok_bind]; exact ih (fun y hy => hl y (by simp [hy])) m'
      · right; rw [he, error_bind]
  have hbad : ∀ l : List Nat, (∀ tr ∈ l, tr ∈ sel) → tr ∈ l → ∀ m,
      l.foldlM (averageStep D values .invalidArgument k n) m = .error .invalidArgument := by
    intro l
    induction l with
    | nil => intro _ h; cases h
    | cons x l ih =>
      intro hl hx m
      rw [List.foldlM_cons]
      rcases hstep k hk x (hl x (by simp)) m with ⟨m', hm'⟩ | he
      · rcases List.mem_cons.1 hx with rfl | hx
        · exfalso
          have hT : D.trajectories.trajs[tr]? = some (D.trajectories.trajs[tr]'(hr tr htr)) := by simp
          unfold averageStep at hm'
          rw [getR_ok.2 hT, ok_bind, if_pos ((span_iff hw hT hn).2 hsp),
            addOver_missing' hw .invalidArgument hT hsp hk _ h1 h2 hno, error_bind] at hm'
          cases hm'
        · rw [hm', ok_bind]; exact ih (fun y hy => hl y (by simp [hy])) hx m'
      · rw [he, error_bind]
  unfold makeSlidingTimeAverage
  rw [if_neg (by omega)]
  have hmap : ∀ l : List Nat, (∀ k' ∈ l, k' + n ≤ values.length) → k ∈ l →
      l.mapM (fun avt => sel.foldlM (averageStep D values .invalidArgument avt n) []) = .error .invalidArgument := by
    intro l
    induction l with
    | nil => intro _ h; cases h
    | cons x l ih =>
      intro hl hx
      rw [List.mapM_cons]
      rcases hfold x (hl x (by simp)) sel (fun _ h => h) [] with ⟨m', hm'⟩ | he
      · rcases List.mem_cons.1 hx with rfl | hx
        · rw [hbad sel (fun _ h => h) htr []] at hm'
          cases hm'
        · rw [hm', ok_bind, ih (fun y hy => hl y (by simp [hy])) hx, error_bind]
      · rw [he, error_bind]
  exact hmap _ (fun k' hk' => by rw [List.mem_range] at hk'; omega) (by rw [List.mem_range]; omega)

/-! ## C67 -/

omit [LinearOrder G] in
theorem bounds_zero (x : Coord G) : Particles.bounds x 0 = ⟨x, x⟩ := by
  unfold Particles.bounds
  simp

theorem boundsLoop_spec {D : DynParts G} {tr : Nat} {f : Nat → Coord G} : ∀ (k t : Nat) (bb : Box 3 G),
    (∀ i, i < k → at_ D tr (t + i + 1) = .ok (f (t + i + 1))) →
    boundsLoop D tr k t bb = .ok ((List.range' (t + 1) k).foldl (fun b i => b.stretch ⟨f i, f i⟩) bb) := by
  intro k
  induction k with
  | zero => intro t bb _; rfl
  | succ k ih =>
    intro t bb h
    have h0 := h 0 (by omega)
    simp only [Nat.add_zero] at h0
    rw [boundsLoop, h0, ok_bind, bounds_zero, ih (t + 1) _ (fun i hi => by
      have := h (i + 1) (by omega)
      rw [show t + 1 + i + 1 = t + (i + 1) + 1 by omega]
      exact this), List.range'_succ, List.foldl_cons]

theorem foldl_stretch_tight {f : Nat → Coord G} (a : Fin 3) : ∀ (l : List Nat) (b : Box 3 G),
    let r := l.foldl (fun b i => b.stretch ⟨f i, f i⟩) b
    (r.lo a = b.lo a ∨ ∃ i ∈ l, r.lo a = f i a) ∧ (r.hi a = b.hi a ∨ ∃ i ∈ l, r.hi a = f i a) := by
  intro l
  induction l with
  | nil => intro b; simp
  | cons i l ih =>
    intro b
    simp only [List.foldl_cons]
    obtain ⟨h1, h2⟩ := ih (b.stretch ⟨f i, f i⟩)
    constructor
    · rcases h1 with h1 | ⟨j, hj, h1⟩
      · rw [h1, Box.stretch_lo]
        rcases min_choice (b.lo a) (f i a) with h | h
        · left; exact h
        · right; exact ⟨i, by simp, h⟩
      · right; exact ⟨j, by simp [hj], h1⟩
    · rcases h2 with h2 | ⟨j, hj, h2⟩
      · rw [h2, Box.stretch_hi]
        rcases max_choice (b.hi a) (f i a) with h | h
        · left; exact h
        · right; exact ⟨i, by simp, h⟩
      · right; exact ⟨j, by simp [hj], h2⟩

/-- C67. `boundsTrajectory` is the smallest box that contains all the positions of the trajectory: it contains
them, and each of its faces goes through one of them. -/
theorem C67_bounds {D : DynParts G} (hw : Wf D) {tr : Nat} (htr : tr < D.trajectories.trajs.length) :
    ∃ bb, boundsTrajectory D tr = .ok bb ∧
      (∀ t x, at_ D tr t = .ok x → ∀ a, bb.lo a ≤ x a ∧ x a ≤ bb.hi a) ∧
      (∀ a, (∃ t x, at_ D tr t = .ok x ∧ x a = bb.lo a) ∧ ∃ t x, at_ D tr t = .ok x ∧ x a = bb.hi a) := by
  have hT : D.trajectories.trajs[tr]? = some (D.trajectories.trajs[tr]'htr) := by simp
  set T := D.trajectories.trajs[tr]'htr with hTdef
  have hm := List.mem_of_getElem? hT
  have hlen : 0 < T.steps.length := List.length_pos_iff.2 (hw.nonempty T hm)
  have hlast : T.lastTime = T.start + T.steps.length - 1 := lastTime_eq (hw.nonempty T hm) (hw.fits' hm)
  have hex : ∀ t, T.start ≤ t → t < T.start + T.steps.length → ∃ x, at_ D tr t = .ok x :=
    fun t h1 h2 => (at_ok hw).1 ⟨T, hT, h1, h2⟩
  have hex' : ∀ t x, at_ D tr t = .ok x → T.start ≤ t ∧ t < T.start + T.steps.length := by
    intro t x hx
    obtain ⟨T', hT', h⟩ := (at_ok hw).2 ⟨x, hx⟩
    rw [hT] at hT'
    cases hT'
    exact h
  choose! f hf using hex
  refine ⟨(List.range' (T.start + 1) (T.steps.length - 1)).foldl (fun b i => b.stretch ⟨f i, f i⟩)
    ⟨f T.start, f T.start⟩, ?_, ?_, ?_⟩
  · unfold boundsTrajectory
    rw [getR_ok.2 hT, ok_bind, hf T.start (le_refl _) (by omega), ok_bind, hlast,
      show T.start + T.steps.length - 1 - T.start = T.steps.length - 1 by omega, bounds_zero,
      boundsLoop_spec _ _ _ (fun i hi => hf (T.start + i + 1) (by omega) (by omega))]
  · intro t x hx a
    obtain ⟨h1, h2⟩ := hex' t x hx
    have hxt : x = f t := by
      rw [hf t h1 h2] at hx
      exact (Except.ok.inj hx).symm
    subst hxt
    obtain ⟨k1, k2⟩ := Box.foldl_stretch_contains (fun i : Nat => (⟨f i, f i⟩ : Box 3 G))
      (List.range' (T.start + 1) (T.steps.length - 1)) ⟨f T.start, f T.start⟩
    by_cases hst : t = T.start
    · subst hst
      exact k1 a
    · exact k2 t (by rw [List.mem_range'_1]; omega) a
  · intro a
    obtain ⟨h1, h2⟩ := foldl_stretch_tight (f := f) a (List.range' (T.start + 1) (T.steps.length - 1))
      ⟨f T.start, f T.start⟩
    constructor
    · rcases h1 with h1 | ⟨i, hi, h1⟩
      · exact ⟨T.start, f T.start, hf _ (le_refl _) (by omega), h1.symm⟩
      · rw [List.mem_range'_1] at hi
        exact ⟨i, f i, hf i (by omega) (by omega), h1.symm⟩
    · rcases h2 with h2 | ⟨i, hi, h2⟩
      · exact ⟨T.start, f T.start, hf _ (le_refl _) (by omega), h2.symm⟩
      · rw [List.mem_range'_1] at hi
        exact ⟨i, f i, hf i (by omega) (by omega), h2.symm⟩

/-- C67. `getMaxBox` is the smallest box that contains the boxes of all the frames; it is undefined without
any frame. -/
theorem C67_maxBox (D : DynParts G) :
    (D.positions = [] → getMaxBox D = .error .ub) ∧
    (D.positions ≠ [] → ∃ bb, getMaxBox D = .ok bb ∧ (∀ ps ∈ D.positions, bb.Contains ps.bb) ∧
      ∀ X : Box 3 G, (∀ ps ∈ D.positions, X.Contains ps.bb) → X.Contains bb) := by
  unfold getMaxBox
  cases D.positions with
  | nil => exact ⟨fun _ => rfl, fun h => absurd rfl h⟩
  | cons ps l =>
    refine ⟨fun h => (List.cons_ne_nil _ _ h).elim, fun _ => ⟨_, rfl, ?_, ?_⟩⟩
    · intro ps' h
      obtain ⟨k1, k2⟩ := Box.foldl_stretch_contains (fun ps : Particles G => ps.bb) l ps.bb
      rcases List.mem_cons.1 h with rfl | h
      · exact k1
      · exact k2 ps' h
    · intro X hX
      exact Box.foldl_stretch_le (fun ps : Particles G => ps.bb) X l ps.bb (hX ps (by simp))
        (fun x hx => hX x (by simp [hx]))

omit [Field G] [LinearOrder G] in
/-- C67. `getMaxSimultaneousParticles` is the largest number of particles in a frame. -/
theorem C67_maxSimultaneous (D : DynParts G) :
    (D.positions = [] → getMaxSimultaneousParticles D = .error .ub) ∧
    (D.positions ≠ [] → ∃ n, getMaxSimultaneousParticles D = .ok n ∧
      (∃ ps ∈ D.positions, ps.pos.length = n) ∧ ∀ ps ∈ D.positions, ps.pos.length ≤ n) := by
  have key : ∀ (l : List (Particles G)) (x : Nat),
      let r := (l.map (fun ps => ps.pos.length)).foldl (fun m y => if m < y then y else m) x
      x ≤ r ∧ (∀ ps ∈ l, ps.pos.length ≤ r) ∧ (r = x ∨ ∃ ps ∈ l, ps.pos.length = r) := by
    intro l
    induction l with
    | nil => intro x; simp
    | cons ps l ih =>
      intro x
      simp only [List.map_cons, List.foldl_cons]
      obtain ⟨h1, h2, h3⟩ := ih (if x < ps.pos.length then ps.pos.length else x)
      have hle : x ≤ (if x < ps.pos.length then ps.pos.length else x) := by split <;> omega
      have hle' : ps.pos.length ≤ (if x < ps.pos.length then ps.pos.length else x) := by split <;> omega
      refine ⟨le_trans hle h1, ?_, ?_⟩
      · intro ps' h
        rcases List.mem_cons.1 h with rfl | h
        · exact le_trans hle' h1
        · exact h2 ps' h
      · rcases h3 with h3 | ⟨ps', h, h3⟩
        · rw [h3]
          split
          · right; exact ⟨ps, by simp, rfl⟩
          · left; rfl
        · right; exact ⟨ps', by simp [h], h3⟩
  unfold getMaxSimultaneousParticles
  cases D.positions with
  | nil => exact ⟨fun _ => rfl, fun h => absurd rfl h⟩
  | cons ps l =>
    refine ⟨fun h => (List.cons_ne_nil _ _ h).elim, fun _ => ⟨_, rfl, ?_, ?_⟩⟩
    · rcases (key l ps.pos.length).2.2 with h | ⟨ps', h, h'⟩
      · exact ⟨ps, by simp, h.symm⟩
      · exact ⟨ps', by simp [h], h'⟩
    · intro ps' h
      rcases List.mem_cons.1 h with rfl | h
      · exact (key l _).1
      · exact (key l _).2.1 ps' h

/-! ## C68 -/

/-- A file of displacements. -/
def displFile (lines : List (G × G)) : List (Dat.Num G) := lines.flatMap (fun d => [.dbl d.1, .dbl d.2])

omit [LinearOrder G] in
theorem readDispl_eq : ∀ (k : Nat) (lines : List (G × G)), k ≤ lines.length →
    readDispl k ⟨displFile lines, false⟩ = (lines.take k).map (fun d => ![d.1, d.2, 0]) := by
  intro k
  induction k with
  | zero => intro _ _; rfl
  | succ k ih =>
    intro lines h
    cases lines with
    | nil => simp at h
    | cons d lines =>
      have := ih lines (by simpa using h)
      simp only [displFile, List.flatMap_cons, List.cons_append, List.nil_append, readDispl, Dat.In.readDbl,
        Bool.false_eq_true, if_false, List.take_succ_cons, List.map_cons]
      rw [← this]
      rfl

omit [LinearOrder G] in
theorem skipDispl_eq : ∀ (k : Nat) (lines : List (G × G)), k ≤ lines.length →
    skipDispl k ⟨displFile lines, false⟩ = ⟨displFile (lines.drop k), false⟩ := by
  intro k
  induction k with
  | zero => intro _ _; rfl
  | succ k ih =>
    intro lines h
    cases lines with
    | nil => simp at h
    | cons d lines =>
      have := ih lines (by simpa using h)
      simp only [displFile, List.flatMap_cons, List.cons_append, List.nil_append, skipDispl, Dat.In.readDbl,
        Bool.false_eq_true, if_false, List.drop_succ_cons]
      exact this

theorem foldl_max_le (l : List (Coord G)) (m : Coord G) :
    let r := l.foldl (fun (m : Coord G) d => ![max (m 0) (d 0), max (m 1) (d 1), m 2]) m
    r 2 = m 2 ∧ (∀ a, a ≠ 2 → m a ≤ r a ∧ (∀ d ∈ l, d a ≤ r a)) := by
  induction l generalizing m with
  | nil => simp
  | cons x l ih =>
    simp only [List.foldl_cons]
    obtain ⟨h1, h2⟩ := ih ![max (m 0) (x 0), max (m 1) (x 1), m 2]
    refine ⟨h1, ?_⟩
    intro a ha
    obtain ⟨h3, h4⟩ := h2 a ha
    have hm : m a ≤ (![max (m 0) (x 0), max (m 1) (x 1), m 2] : Coord G) a ∧
        x a ≤ (![max (m 0) (x 0), max (m 1) (x 1), m 2] : Coord G) a := by
      fin_cases a
      · exact ⟨le_max_left _ _, le_max_right _ _⟩
      · exact ⟨le_max_left _ _, le_max_right _ _⟩
      · exact absurd rfl ha
    refine ⟨le_trans hm.1 h3, ?_⟩
    intro d hd
    rcases List.mem_cons.1 hd with rfl | hd
    · exact le_trans hm.2 h3
    · exact h4 d hd

theorem partialSum_mem_step {l : List (Coord G)} : ∀ t, t + 1 < l.length → ∀ w w' x,
    (partialSum l)[t]? = some w → (partialSum l)[t + 1]? = some w' → l[t + 1]? = some x → w' = w + x := by
  intro t ht w w' x h1 h2 h3
  obtain ⟨y, e1, e2⟩ := partialSum_step l t x h3
  rw [h1] at e1
  rw [h2] at e2
  cases e1
  exact Option.some.inj e2

/-- C68. `removeDrift(file, offset)`, when the file has a line of displacements for each frame: the frames are
translated. From a frame to the next the translation changes by the displacement of the line `offset` further
if there are frames left, and stays the same in the last `offset` frames. No translation is positive along any
axis, and there is none along the third axis. Missing: the displacements of the last frames, see
`C68_offset_counterexample`. -/
theorem C68_file_partial [IsStrictOrderedRing G] (D : DynParts G) (lines : List (G × G)) (offset : Nat)
    (hlen : D.positions.length ≤ lines.length) (hoff : offset ≤ D.positions.length) :
    ∃ w : Nat → Coord G,
      (removeDriftFile D (some (displFile lines)) offset).trajectories = D.trajectories ∧
      (∀ t : Nat, (removeDriftFile D (some (displFile lines)) offset).positions[t]? =
        (D.positions[t]?).map (fun ps : Particles G => ps.translate (w t))) ∧
      (∀ t d, t + 1 < D.positions.length - offset → lines[offset + t + 1]? = some d →
        w (t + 1) = w t + ![d.1, d.2, 0]) ∧
      (∀ t, t + 1 < D.positions.length → D.positions.length - offset ≤ t + 1 → w (t + 1) = w t) ∧
      (∀ t a, t < D.positions.length → w t a ≤ 0 ∧ w t 2 = 0) := by
  set n := D.positions.length with hn
  set displ : List (Coord G) := ((lines.drop offset).take (n - offset)).map (fun d => ![d.1, d.2, 0])
      ++ List.replicate (n - (n - offset)) 0 with hd
  have hread : readDispl (n - offset) (skipDispl offset ⟨displFile lines, false⟩)
      ++ List.replicate (n - (n - offset)) 0 = displ := by
    rw [skipDispl_eq _ _ (by omega), readDispl_eq _ _ (by simp; omega)]
  have hdl : displ.length = n := by
    rw [hd]; simp; omega
  set maxd : Coord G := (partialSum displ).foldl
    (fun (m : Coord G) d => ![max (m 0) (d 0), max (m 1) (d 1), m 2]) 0 with hmaxd
  have hpl : (partialSum displ).length = n := by rw [partialSum_length, hdl]
  have hD : removeDriftFile D (some (displFile lines)) offset =
      { D with positions := List.zipWith (fun ps d => ps.translate (d - maxd)) D.positions (partialSum displ) } := by
    unfold removeDriftFile
    simp only
    rw [hread]
  rw [hD]
  have hg : ∀ t, t < n → (partialSum displ)[t]? = some ((partialSum displ)[t]?.getD 0) := by
    intro t ht
    rw [List.getElem?_eq_getElem (by omega)]
    rfl
  have hdg : ∀ t, t + 1 < n → displ[t + 1]? = some (displ[t + 1]?.getD 0) := by
    intro t ht
    rw [List.getElem?_eq_getElem (by omega)]
    rfl
  obtain ⟨hm2, hm⟩ := foldl_max_le (partialSum displ) 0
  have hz : ∀ t, t < n → ∀ x, displ[t]? = some x → x 2 = 0 := by
    intro t ht x hx
    rw [hd] at hx
    rcases List.mem_append.1 (List.mem_of_getElem? hx) with h | h
    · obtain ⟨d, -, rfl⟩ := List.mem_map.1 h
      rfl
    · rw [List.eq_of_mem_replicate h]
      rfl
  have hz2 : ∀ t, t < n → ((partialSum displ)[t]?.getD 0) 2 = 0 := by
    intro t
    induction t with
    | zero =>
      intro ht
      cases hc : displ with
      | nil => rw [hc] at hdl; simp at hdl; omega
      | cons x l =>
        have := hz 0 ht x (by rw [hc]; rfl)
        simpa [partialSum] using this
    | succ t ih =>
      intro ht
      rw [partialSum_mem_step t (by omega) _ _ _ (hg t (by omega)) (hg (t + 1) ht) (hdg t ht), Pi.add_apply,
        ih (by omega), hz (t + 1) ht _ (hdg t ht), add_zero]
  refine ⟨fun t => (partialSum displ)[t]?.getD 0 - maxd, rfl, ?_, ?_, ?_, ?_⟩
  · intro t
    simp only [List.getElem?_zipWith]
    by_cases ht : t < n
    · rw [hg t ht, List.getElem?_eq_getElem (by omega)]
      rfl
    · rw [List.getElem?_eq_none (l := D.positions) (by omega)]
      rfl
  · intro t d ht hl
    have hx : displ[t + 1]? = some ![d.1, d.2, 0] := by
      rw [hd, List.getElem?_append_left (by simp; omega), List.getElem?_map, List.getElem?_take_of_lt ht,
        List.getElem?_drop, show offset + (t + 1) = offset + t + 1 by omega, hl]
      rfl
    simp only
    rw [partialSum_mem_step t (by omega) _ _ _ (hg t (by omega)) (hg (t + 1) (by omega)) hx]
    abel
  · intro t ht hle
    have hx : displ[t + 1]? = some 0 := by
      have hl : (((lines.drop offset).take (n - offset)).map (fun d => (![d.1, d.2, 0] : Coord G))).length = n - offset := by
        simp; omega
      rw [hd, List.getElem?_append_right (by omega), hl, List.getElem?_replicate, if_pos (by omega)]
    simp only
    rw [partialSum_mem_step t (by omega) _ _ _ (hg t (by omega)) (hg (t + 1) (by omega)) hx, add_zero]
  · intro t a ht
    have h2 : ((partialSum displ)[t]?.getD 0 - maxd) 2 = 0 := by
      rw [Pi.sub_apply, hz2 t ht, hmaxd, hm2]
      simp
    refine ⟨?_, h2⟩
    by_cases ha : a = 2
    · subst ha
      exact h2.le
    · have hmem := List.mem_of_getElem? (hg t ht)
      have := (hm a ha).2 _ hmem
      simp only [Pi.sub_apply]
      rw [hmaxd]
      linarith

/-- C68. With an offset, the displacements of the last frames are not removed: from the frame
`n-offset-1` to the next the translation does not change, whatever the line of the file. -/
theorem C68_offset_counterexample [IsStrictOrderedRing G] (D : DynParts G) (lines : List (G × G)) {offset : Nat} (h0 : 0 < offset)
    (hlen : D.positions.length ≤ lines.length) (hoff : offset < D.positions.length) {d : G × G} (hd : d ≠ 0)
    {w : Nat → Coord G} (hne : ∀ ps ∈ D.positions, ps.pos ≠ [])
    (hw : ∀ t : Nat, (removeDriftFile D (some (displFile lines)) offset).positions[t]? =
        (D.positions[t]?).map (fun ps : Particles G => ps.translate (w t))) :
    w (D.positions.length - offset) ≠ w (D.positions.length - offset - 1) + ![d.1, d.2, 0] := by
  obtain ⟨w', -, h2, -, h4, -⟩ := C68_file_partial D lines offset hlen (by omega)
  have heq : ∀ t, t < D.positions.length → w t = w' t := by
    intro t ht
    have e := hw t
    rw [h2 t, List.getElem?_eq_getElem ht] at e
    have e := Option.some.inj e
    have hp : (D.positions[t].translate (w' t)).pos = (D.positions[t].translate (w t)).pos := congrArg Particles.pos e
    have hn0 := hne _ (List.getElem_mem ht)
    cases hc : D.positions[t].pos with
    | nil => exact absurd hc hn0
    | cons x l =>
      simp only [Particles.translate, hc, List.map_cons, List.cons.injEq] at hp
      have hp := hp.1
      funext a
      have := congrFun hp a
      simp only [Pi.add_apply] at this
      linarith
  intro h
  have h5 := h4 (D.positions.length - offset - 1) (by omega) (by omega)
  rw [show D.positions.length - offset - 1 + 1 = D.positions.length - offset by omega] at h5
  rw [heq _ (by omega), heq _ (by omega), h5] at h
  apply hd
  have a0 := congrFun h 0
  have a1 := congrFun h 1
  simp at a0 a1
  exact Prod.ext a0 a1

/-- A file of two numbers per frame for `exTwo`, that has three frames. -/
example : ∃ lines : List (ℚ × ℚ), exTwo.positions.length ≤ lines.length ∧ 1 < exTwo.positions.length ∧
    ∀ ps ∈ exTwo.positions, ps.pos ≠ [] := by
  refine ⟨[(0, 0), (1, 2), (3, 4)], by simp [exTwo], by simp [exTwo], ?_⟩
  simp [exTwo]

/-- The hypotheses of C66 and C67 hold for `exTwo` with the values 1, 2, ... -/
example : Wf exTwo ∧ [0, 1].Nodup ∧ (∀ tr ∈ [0, 1], tr < exTwo.trajectories.trajs.length) ∧ Spans exTwo 0 0 2 := by
  refine ⟨exTwo_wf, by simp, by simp [exTwo], ?_⟩
  intro t _ h
  exact ⟨_, rfl, by simp, by simp; omega⟩

end Dyn
end Colloids
