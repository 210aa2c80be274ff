import Verif.DynField.Model
import Verif.Traj.IndexLemmas
import Verif.CommonLemmas
import Verif.Index.Lemmas

/-! # Helper lemmas for `DynField` -/

namespace Colloids

/-- A table of `n` values. -/
def tab (n : Nat) (f : Nat → α) : List α := (List.range n).map f

theorem tab_length (n : Nat) (f : Nat → α) : (tab n f).length = n := by simp [tab]

theorem tab_congr {n : Nat} {f g : Nat → α} (h : ∀ i, i < n → f i = g i) : tab n f = tab n g := by
  unfold tab
  apply List.map_congr_left
  intro i hi
  exact h i (List.mem_range.1 hi)

theorem getR_tab {n : Nat} {f : Nat → α} {i : Nat} (h : i < n) : getR (tab n f) i = .ok (f i) := by
  rw [getR_ok]; simp [tab, h]

theorem setR_tab {n : Nat} {f : Nat → α} {i : Nat} (a : α) (h : i < n) :
    setR (tab n f) i a = .ok (tab n (fun j => if j = i then a else f j)) := by
  unfold setR
  rw [if_pos (by rw [tab_length]; exact h)]
  congr 1
  apply List.ext_getElem?
  intro j
  rw [List.getElem?_set]
  simp only [tab, List.length_map, List.length_range, List.getElem?_map]
  by_cases hj : i = j
  · subst hj; simp [h]
  · rw [if_neg hj]
    by_cases hjn : j < n
    · simp [hjn, Ne.symm hj]
    · simp [hjn]

theorem eq_tab [Inhabited α] (l : List α) : l = tab l.length (fun i => l[i]?.getD default) := by
  apply List.ext_getElem?
  intro i
  unfold tab
  by_cases h : i < l.length <;> simp [h]

theorem mapM_tab {β : Type} (f : Nat → R β) (g : Nat → β) (n : Nat)
    (h : ∀ i, i < n → f i = .ok (g i)) : (List.range n).mapM f = .ok (tab n g) :=
  TreeIndex.mapM_ok_of f g _ (fun x hx => h x (List.mem_range.1 hx))

namespace DynField

variable {V : Type} [Add V] [Zero V]

/-- Number of positions in frame `t`. -/
def npos (ti : TrajIndex) (t : Nat) : Nat := (ti.inverse[t]?.getD []).length

/-- Trajectory of position `p` of frame `t`. -/
def trOf (ti : TrajIndex) (t p : Nat) : Nat := (ti.inverse[t]?.getD [])[p]?.getD 0

/-- The non null value of trajectory `tr` in frame `u`, if there is one. -/
def sample (ops : FieldOps V) (ti : TrajIndex) (frames : List (List V)) (tr u : Nat) : Option V :=
  match ti.convert u tr with
  | .ok q => ((frames[u]?).bind (fun fr => fr[q]?)).filter (fun x => !ops.isNull x)
  | .error _ => none

/-- What the model needs to know of a trajectory index. -/
structure Sound (ti : TrajIndex) (frames : List (List V)) : Prop where
  frameCount : frames.length = ti.inverse.length
  sizes : ∀ (t : Nat) (h : t < frames.length), frames[t].length = npos ti t
  good : ∀ (tr : Nat) (T : Traj), ti.trajs[tr]? = some T → T.steps ≠ [] ∧ T.start + T.steps.length ≤ szMod
  inv_lt : ∀ (t p : Nat), t < ti.inverse.length → p < npos ti t → trOf ti t p < ti.trajs.length
  pos_lt : ∀ tr u q, u < ti.inverse.length → ti.convert u tr = .ok q → q < npos ti u

/-- The values binned at position `p` of frame `t` by the first `s` frames. -/
def binned (ops : FieldOps V) (ti : TrajIndex) (frames : List (List V)) (half s t tr : Nat) :
    List V :=
  (List.range s).filterMap (fun u => if t ≤ u + half ∧ u ≤ t + half then
    sample ops ti frames tr u else none)

def sum (l : List V) : V := l.foldl (· + ·) 0

def mean (ops : FieldOps V) (l : List V) : V := ops.div (sum l) (max 1 l.length)

omit [Add V] [Zero V] in
theorem binned_succ (ops : FieldOps V) (ti : TrajIndex) (frames : List (List V))
    (half s t tr : Nat) :
    binned ops ti frames half (s + 1) t tr = binned ops ti frames half s t tr ++
      (if t ≤ s + half ∧ s ≤ t + half then (sample ops ti frames tr s).toList else []) := by
  unfold binned
  rw [List.range_succ, List.filterMap_append]
  congr 1
  by_cases h : t ≤ s + half ∧ s ≤ t + half
  · simp only [h, and_self, if_true, List.filterMap_cons, List.filterMap_nil]
    cases sample ops ti frames tr s <;> rfl
  · simp only [h, if_false, List.filterMap_cons, List.filterMap_nil]

theorem binOne_ok {ops : FieldOps V} {ti : TrajIndex} {frames : List (List V)}
    (hs : Sound ti frames) {now t p : Nat} (hnow : now < ti.inverse.length)
    (ht : t < ti.inverse.length) (hp : p < npos ti t) (v : V) (n : Nat)
    (hfr : now < frames.length) :
    binOne ops ti now frames[now] (trOf ti t p) v n =
      .ok (((sample ops ti frames (trOf ti t p) now).toList).foldl (· + ·) v,
        n + ((sample ops ti frames (trOf ti t p) now).toList).length) := by
  have hlt := hs.inv_lt t p ht hp
  have hpl := hs.pos_lt (trOf ti t p) now
  generalize trOf ti t p = tr at *
  have hg : getR ti.trajs tr = .ok ti.trajs[tr] := getR_of_lt hlt
  obtain ⟨g1, g2⟩ := hs.good tr ti.trajs[tr] (by simp [hlt])
  unfold binOne sample
  rw [hg, ok_bind]
  by_cases he : ti.trajs[tr].exist now = true
  · rw [if_pos he]
    obtain ⟨e1, e2⟩ := (exist_iff g1 g2 now).1 he
    have hi : now - ti.trajs[tr].start < ti.trajs[tr].steps.length := by omega
    have hat : ti.trajs[tr].at_ now = .ok ti.trajs[tr].steps[now - ti.trajs[tr].start] :=
      (at_eq g1 g2).2 ⟨e1, by simp [hi]⟩
    have hc : ti.convert now tr = .ok ti.trajs[tr].steps[now - ti.trajs[tr].start] := by
      unfold TrajIndex.convert; rw [hg, ok_bind]; exact hat
    have hq := hpl _ hnow hc
    rw [← hs.sizes now hfr] at hq
    rw [hc, hat, ok_bind, getR_of_lt hq, ok_bind]
    dsimp only
    rw [List.getElem?_eq_getElem hfr, Option.bind_some, List.getElem?_eq_getElem hq]
    generalize frames[now][ti.trajs[tr].steps[now - ti.trajs[tr].start]] = x
    by_cases hn : ops.isNull x = true
    · rw [if_pos hn]; simp [Option.filter, hn]
    · rw [if_neg hn]; simp [Option.filter, hn]
  · rw [if_neg he]
    have hc : ∀ q, ti.convert now tr ≠ .ok q := by
      intro q hq
      unfold TrajIndex.convert at hq
      rw [hg, ok_bind] at hq
      obtain ⟨a, b⟩ := (at_eq g1 g2).1 hq
      obtain ⟨b, -⟩ := List.getElem?_eq_some_iff.1 b
      exact he ((exist_iff g1 g2 now).2 ⟨a, by omega⟩)
    cases hcc : ti.convert now tr with
    | ok q => exact absurd hcc (hc q)
    | error e => rfl

theorem getR_inv {ti : TrajIndex} {t : Nat} (ht : t < ti.inverse.length) :
    getR ti.inverse t = .ok (tab (npos ti t) (trOf ti t)) := by
  rw [getR_of_lt ht]
  congr 1
  have : ti.inverse[t] = ti.inverse[t]?.getD [] := by simp [ht]
  rw [this]
  exact eq_tab _

theorem binRow_ok {ops : FieldOps V} {ti : TrajIndex} {frames : List (List V)}
    (hs : Sound ti frames) {now t : Nat} (hnow : now < ti.inverse.length)
    (ht : t < ti.inverse.length) (v : Nat → V) (n : Nat → Nat)
    (hfr : now < frames.length) :
    binRow ops ti now frames[now] (tab (npos ti t) (trOf ti t)) (tab (npos ti t) v)
      (tab (npos ti t) n) =
      .ok (tab (npos ti t) (fun p =>
        (((sample ops ti frames (trOf ti t p) now).toList).foldl (· + ·) (v p),
        n p + ((sample ops ti frames (trOf ti t p) now).toList).length))) := by
  unfold binRow
  rw [tab_length]
  apply mapM_tab
  intro p hp
  rw [getR_tab hp, ok_bind, getR_tab hp, ok_bind, getR_tab hp, ok_bind]
  exact binOne_ok hs hnow ht hp (v p) (n p) hfr

/-- All the rows, given as a function of time and position. -/
def rows (ti : TrajIndex) (v : Nat → Nat → α) : List (List α) :=
  tab ti.inverse.length (fun t => tab (npos ti t) (v t))

/-- `m` rows from time `lo` on. -/
def rowsFrom (ti : TrajIndex) (lo m : Nat) (v : Nat → Nat → α) : List (List α) :=
  tab m (fun k => tab (npos ti (lo + k)) (v (lo + k)))

theorem rows_congr {ti : TrajIndex} {v w : Nat → Nat → α}
    (h : ∀ t p, t < ti.inverse.length → p < npos ti t → v t p = w t p) : rows ti v = rows ti w :=
  tab_congr (fun t ht => tab_congr (fun p hp => h t p ht hp))

theorem rowsFrom_congr {ti : TrajIndex} {lo m : Nat} {v w : Nat → Nat → α}
    (h : ∀ t p, lo ≤ t → t < lo + m → p < npos ti t → v t p = w t p) :
    rowsFrom ti lo m v = rowsFrom ti lo m w :=
  tab_congr (fun t ht => tab_congr (fun p hp => h (lo + t) p (by omega) (by omega) hp))

theorem binTime_fold {ops : FieldOps V} {ti : TrajIndex} {frames : List (List V)}
    (hs : Sound ti frames) {now : Nat} (hnow : now < ti.inverse.length)
    (hfr : now < frames.length) (lo m : Nat) (hm : lo + m ≤ ti.inverse.length)
    (v : Nat → Nat → V) (n : Nat → Nat → Nat) : ∀ (k : Nat), k ≤ m →
    (List.range' lo k).foldlM (binTime ops ti now lo frames[now]) (rows ti v, rowsFrom ti lo m n) =
      .ok (rows ti (fun t p => if lo ≤ t ∧ t < lo + k then
          ((sample ops ti frames (trOf ti t p) now).toList).foldl (· + ·) (v t p) else v t p),
        rowsFrom ti lo m (fun t p => if t < lo + k then
          n t p + ((sample ops ti frames (trOf ti t p) now).toList).length else n t p)) := by
  intro k
  induction k with
  | zero =>
    intro _
    rw [List.range'_zero, List.foldlM_nil, pure_eq_ok]
    congr 2
    · apply rows_congr; intro t p _ _; rw [if_neg (by omega)]
    · apply rowsFrom_congr; intro t p h1 h2 _; rw [if_neg (by omega)]
  | succ k ih =>
    intro hk
    rw [List.range'_concat, List.foldlM_append, ih (by omega), ok_bind]
    rw [List.foldlM_cons]
    simp only [List.foldlM_nil]
    have ht : lo + k < ti.inverse.length := by omega
    unfold binTime
    dsimp only
    rw [Nat.one_mul, getR_inv ht, ok_bind]
    unfold rows rowsFrom
    rw [getR_tab ht, ok_bind]
    have hk0 : lo + k - lo = k := by omega
    rw [hk0, getR_tab (show k < m by omega), ok_bind]
    rw [binRow_ok hs hnow ht _ _ hfr, ok_bind, setR_tab _ ht, ok_bind,
      setR_tab _ (show k < m by omega), ok_bind]
    rw [pure_eq_ok, ok_bind, pure_eq_ok]
    congr 2
    · apply tab_congr
      intro t htT
      by_cases hte : t = lo + k
      · subst hte
        simp only [if_true]
        unfold tab
        rw [List.map_map]
        apply List.map_congr_left
        intro p _
        simp
      · rw [if_neg hte]
        apply tab_congr
        intro p _
        dsimp only
        by_cases h2 : lo ≤ t ∧ t < lo + k
        · rw [if_pos h2, if_pos (by omega)]
        · rw [if_neg h2, if_neg (by omega)]
    · apply tab_congr
      intro j hj
      by_cases hte : j = k
      · subst hte
        simp only [if_true]
        unfold tab
        rw [List.map_map]
        apply List.map_congr_left
        intro p _
        simp
      · rw [if_neg hte]
        apply tab_congr
        intro p _
        dsimp only
        by_cases h2 : lo + j < lo + k
        · rw [if_pos h2, if_pos (by omega)]
        · rw [if_neg h2, if_neg (by omega)]

theorem drop_rowsFrom {ti : TrajIndex} {lo m : Nat} (n : Nat → Nat → α) :
    (rowsFrom ti lo (m + 1) n).drop 1 = rowsFrom ti (lo + 1) m n := by
  unfold rowsFrom tab
  rw [List.range_succ_eq_map, List.map_cons, List.drop_one, List.tail_cons, List.map_map]
  apply List.map_congr_left
  intro k _
  simp only [Function.comp]
  rw [show lo + k.succ = lo + 1 + k by omega]

theorem divide_fold {ops : FieldOps V} {ti : TrajIndex} (n : Nat → Nat → Nat) :
    ∀ (k lo m : Nat) (v : Nat → Nat → V), lo + k ≤ ti.inverse.length →
    (List.range' lo k).foldlM (divide ops) (rows ti v, rowsFrom ti lo (m + k) n) =
      .ok (rows ti (fun t p => if lo ≤ t ∧ t < lo + k then ops.div (v t p) (max 1 (n t p)) else v t p),
        rowsFrom ti (lo + k) m n) := by
  intro k
  induction k with
  | zero =>
    intro lo m v _
    rw [List.range'_zero, List.foldlM_nil, pure_eq_ok]
    congr 2
    apply rows_congr; intro t p _ _; rw [if_neg (by omega)]
  | succ k ih =>
    intro lo m v hk
    rw [List.range'_succ, List.foldlM_cons]
    have ht : lo < ti.inverse.length := by omega
    have e : divide ops (rows ti v, rowsFrom ti lo (m + (k + 1)) n) lo =
        .ok (rows ti (fun t p => if t = lo then ops.div (v t p) (max 1 (n t p)) else v t p),
          rowsFrom ti (lo + 1) (m + k) n) := by
      unfold divide
      dsimp only
      rw [show m + (k + 1) = m + k + 1 by omega, drop_rowsFrom]
      unfold rows rowsFrom
      rw [getR_tab ht, ok_bind, getR_tab (by omega), ok_bind, tab_length]
      rw [mapM_tab _ (fun p => ops.div (v lo p) (max 1 (n lo p))), ok_bind, setR_tab _ ht, ok_bind,
        pure_eq_ok]
      · congr 2
        apply tab_congr
        intro t _
        by_cases h : t = lo
        · subst h; simp
        · simp [h]
      · intro p hp
        rw [getR_tab hp, ok_bind, getR_tab (by simpa using hp), ok_bind]
        rfl
    rw [e, ok_bind, ih (lo + 1) m _ (by omega)]
    congr 2
    · apply rows_congr
      intro t p _ _
      by_cases h1 : t = lo
      · subst h1
        rw [if_neg (by omega), if_pos rfl, if_pos (by omega)]
      · by_cases h2 : lo + 1 ≤ t ∧ t < lo + 1 + k
        · rw [if_pos h2, if_neg h1, if_pos (by omega)]
        · rw [if_neg h2, if_neg h1, if_neg (by omega)]
    · rw [show lo + 1 + k = lo + (k + 1) by omega]

/-- State of a field after `s` frames, the values being averaged over `half` frames on each side. -/
structure Inv (ops : FieldOps V) (ti : TrajIndex) (frames : List (List V)) (averaging s : Nat)
    (f : DynField V) : Prop where
  traj : f.trajectories = ti
  avg : f.averaging = averaging
  time : f.actualTime = s
  vals : f.values = rows ti (fun t p =>
    if t + averaging / 2 < s ∨ (s = ti.inverse.length ∧ averaging / 2 < s) then
      mean ops (binned ops ti frames (averaging / 2) s t (trOf ti t p))
    else sum (binned ops ti frames (averaging / 2) s t (trOf ti t p)))
  divs : s < ti.inverse.length → f.divisors = rowsFrom ti (s - averaging / 2)
    (min (s + averaging / 2 + 1) ti.inverse.length - (s - averaging / 2))
    (fun t p => (binned ops ti frames (averaging / 2) s t (trOf ti t p)).length)

theorem inv_new (ops : FieldOps V) (ti : TrajIndex) (frames : List (List V)) (averaging : Nat) :
    Inv ops ti frames averaging 0 (new ti averaging) := by
  refine ⟨rfl, rfl, rfl, ?_, ?_⟩
  · unfold new rows
    dsimp only
    apply List.ext_getElem?
    intro t
    unfold tab
    by_cases ht : t < ti.inverse.length
    · simp only [List.getElem?_map, List.getElem?_range ht, ht, List.getElem?_eq_getElem,
        Option.map_some]
      congr 1
      symm
      rw [List.eq_replicate_iff]
      constructor
      · simp [npos, ht]
      · intro b hb
        obtain ⟨p, -, rfl⟩ := List.mem_map.1 hb
        rw [if_neg (by omega)]
        rfl
    · simp [ht]
  · intro _
    unfold new rowsFrom
    dsimp only
    apply List.ext_getElem?
    intro t
    unfold tab
    by_cases ht : t < min (0 + averaging / 2 + 1) ti.inverse.length - (0 - averaging / 2)
    · rw [List.getElem?_map, List.getElem?_map, List.getElem?_range ht, List.getElem?_take,
        if_pos (by omega), List.getElem?_eq_getElem (show t < ti.inverse.length by omega),
        Option.map_some, Option.map_some]
      congr 1
      symm
      rw [List.eq_replicate_iff]
      constructor
      · simp [npos, show t < ti.inverse.length by omega]
      · intro b hb
        obtain ⟨p, -, rfl⟩ := List.mem_map.1 hb
        rfl
    · rw [List.getElem?_eq_none (by simp; omega), List.getElem?_eq_none (by simp; omega)]

theorem sum_append (l : List V) (o : Option V) : sum (l ++ o.toList) = o.toList.foldl (· + ·) (sum l) := by
  unfold sum; rw [List.foldl_append]

theorem inv_push {ops : FieldOps V} {ti : TrajIndex} {frames : List (List V)}
    (hs : Sound ti frames) {averaging s : Nat} (hav : averaging / 2 ≠ 0) {f : DynField V}
    (hi : Inv ops ti frames averaging s f) (hlt : s < frames.length) :
    ∃ f', pushBack ops f frames[s] = .ok f' ∧ Inv ops ti frames averaging (s + 1) f' := by
  obtain ⟨i1, i2, i3, i4, i5⟩ := hi
  have hT : s < ti.inverse.length := by rw [← hs.frameCount]; exact hlt
  have i5 := i5 hT
  have hlen : f.values.length = ti.inverse.length := by rw [i4]; simp [rows, tab]
  unfold pushBack
  dsimp only
  rw [i2, i3, i1, hlen, if_neg hav]
  generalize hh : averaging / 2 = h at *
  have ht0 : max s h - h = s - h := by omega
  rw [ht0, i4, i5]
  generalize hT' : ti.inverse.length = T at *
  have hm : s - h + (min (s + h + 1) T - (s - h)) ≤ ti.inverse.length := by omega
  rw [binTime_fold hs (by omega) hlt (s - h) _ hm _ _ _ (le_refl _), ok_bind]
  -- the values once frame `s` is binned
  have e1 : rows ti (fun t p => if s - h ≤ t ∧ t < s - h + (min (s + h + 1) T - (s - h)) then
        ((sample ops ti frames (trOf ti t p) s).toList).foldl (· + ·)
          (if t + h < s ∨ (s = T ∧ h < s) then
            mean ops (binned ops ti frames h s t (trOf ti t p))
          else sum (binned ops ti frames h s t (trOf ti t p)))
        else (if t + h < s ∨ (s = T ∧ h < s) then
            mean ops (binned ops ti frames h s t (trOf ti t p))
          else sum (binned ops ti frames h s t (trOf ti t p)))) =
      rows ti (fun t p => if t + h < s then
            mean ops (binned ops ti frames h (s + 1) t (trOf ti t p))
          else sum (binned ops ti frames h (s + 1) t (trOf ti t p))) := by
    apply rows_congr
    intro t p ht _
    rw [binned_succ]
    by_cases h1 : s - h ≤ t ∧ t < s - h + (min (s + h + 1) T - (s - h))
    · rw [if_pos h1, if_neg (by omega), if_neg (by omega), if_pos (by omega), sum_append]
    · rw [if_neg h1, if_neg (show ¬ (t ≤ s + h ∧ s ≤ t + h) by omega), List.append_nil]
      by_cases h2 : t + h < s
      · rw [if_pos (Or.inl h2), if_pos h2]
      · rw [if_neg (by omega), if_neg h2]
  have e2 : rowsFrom ti (s - h) (min (s + h + 1) T - (s - h))
        (fun t p => if t < s - h + (min (s + h + 1) T - (s - h)) then
          (binned ops ti frames h s t (trOf ti t p)).length +
          ((sample ops ti frames (trOf ti t p) s).toList).length
          else (binned ops ti frames h s t (trOf ti t p)).length) =
      rowsFrom ti (s - h) (min (s + h + 1) T - (s - h))
        (fun t p => (binned ops ti frames h (s + 1) t (trOf ti t p)).length) := by
    apply rowsFrom_congr
    intro t p h1 h2 _
    rw [if_pos h2, binned_succ, if_pos (by omega), List.length_append]
  rw [e1, e2]
  clear e1 e2
  -- the division
  have e3 : flush ops s h (rows ti (fun t p => if t + h < s then
            mean ops (binned ops ti frames h (s + 1) t (trOf ti t p))
          else sum (binned ops ti frames h (s + 1) t (trOf ti t p))),
        rowsFrom ti (s - h) (min (s + h + 1) T - (s - h))
        (fun t p => (binned ops ti frames h (s + 1) t (trOf ti t p)).length)) =
      .ok (rows ti (fun t p => if t + h < s + 1 ∨ (s + 1 = T ∧ h < s + 1) then
            mean ops (binned ops ti frames h (s + 1) t (trOf ti t p))
          else sum (binned ops ti frames h (s + 1) t (trOf ti t p))),
        rowsFrom ti (s + 1 - h) (if s + 1 = T ∧ h < T then 0 else min (s + h + 1) T - (s + 1 - h))
        (fun t p => (binned ops ti frames h (s + 1) t (trOf ti t p)).length)) := by
    unfold flush
    dsimp only
    rw [show (rows ti (fun t p => if t + h < s then
            mean ops (binned ops ti frames h (s + 1) t (trOf ti t p))
          else sum (binned ops ti frames h (s + 1) t (trOf ti t p)))).length = T by
        rw [rows, tab_length, hT']]
    by_cases hsh : h ≤ s
    · rw [if_pos hsh]
      have hk : divTurns s (s - h) T = if s + 1 = T then T - (s - h) else 1 := by
        unfold divTurns; split <;> omega
      have hsplit : min (s + h + 1) T - (s - h) =
          (min (s + h + 1) T - (s - h) - divTurns s (s - h) T) + divTurns s (s - h) T := by
        rw [hk]; split <;> omega
      rw [hsplit, divide_fold _ _ _ _ _ (by rw [hk, hT']; split <;> omega)]
      congr 2
      · apply rows_congr
        intro t p ht _
        rw [hk]
        by_cases hl : s + 1 = T
        · rw [if_pos hl]
          by_cases h1 : s - h ≤ t ∧ t < s - h + (T - (s - h))
          · rw [if_pos h1, if_neg (by omega), if_pos (by omega)]; rfl
          · rw [if_neg h1, if_pos (by omega), if_pos (by omega)]
        · rw [if_neg hl]
          by_cases h1 : s - h ≤ t ∧ t < s - h + 1
          · rw [if_pos h1, if_neg (by omega), if_pos (by omega)]; rfl
          · rw [if_neg h1]
            by_cases h2 : t + h < s
            · rw [if_pos h2, if_pos (by omega)]
            · rw [if_neg h2, if_neg (by omega)]
      · rw [hk]
        by_cases hl : s + 1 = T
        · rw [if_pos hl, if_pos (by omega)]
          have : min (s + h + 1) T - (s - h) - (T - (s - h)) = 0 := by omega
          rw [this]
          rfl
        · rw [if_neg hl, if_neg (by omega)]
          rw [show s - h + 1 = s + 1 - h by omega,
            show min (s + h + 1) T - (s - h) - 1 = min (s + h + 1) T - (s + 1 - h) by omega]
    · rw [if_neg hsh, pure_eq_ok]
      congr 2
      · apply rows_congr
        intro t p ht _
        rw [if_neg (by omega), if_neg (by omega)]
      · rw [if_neg (by omega), show s - h = s + 1 - h by omega]
  rw [e3, ok_bind]
  dsimp only
  by_cases hpb : 1 + s + h < T
  · rw [if_pos hpb, getR_inv (by omega), ok_bind, pure_eq_ok, ok_bind, pure_eq_ok]
    refine ⟨_, rfl, ?_⟩
    refine ⟨rfl, rfl, rfl, ?_, ?_⟩
    · dsimp only; rw [hh, hT']
    · intro _
      dsimp only
      rw [hh, hT', if_neg (by omega), tab_length]
      have : min (s + 1 + h + 1) T - (s + 1 - h) = (min (s + h + 1) T - (s + 1 - h)) + 1 := by omega
      rw [this]
      unfold rowsFrom
      conv_rhs => rw [tab]
      rw [List.range_succ, List.map_append]
      congr 1
      rw [List.map_cons, List.map_nil]
      congr 1
      have hidx : s + 1 - h + (min (s + h + 1) T - (s + 1 - h)) = 1 + s + h := by omega
      rw [hidx]
      symm
      rw [List.eq_replicate_iff]
      constructor
      · rw [tab_length]
      · intro b hb
        unfold tab at hb
        obtain ⟨p, -, rfl⟩ := List.mem_map.1 hb
        rw [List.length_eq_zero_iff]
        unfold binned
        rw [List.filterMap_eq_nil_iff]
        intro u hu
        rw [List.mem_range] at hu
        rw [if_neg (by omega)]
  · rw [if_neg hpb, pure_eq_ok, ok_bind, pure_eq_ok]
    refine ⟨_, rfl, ?_⟩
    refine ⟨rfl, rfl, rfl, ?_, ?_⟩
    · dsimp only; rw [hh, hT']
    · intro h1
      dsimp only
      rw [hh, hT', if_neg (by omega)]
      rw [show min (s + 1 + h + 1) T = min (s + h + 1) T by omega]

theorem inv_all {ops : FieldOps V} {ti : TrajIndex} {frames : List (List V)}
    (hs : Sound ti frames) {averaging : Nat} (hav : averaging / 2 ≠ 0) :
    ∀ (s : Nat), s ≤ frames.length →
      ∃ f, (frames.take s).foldlM (pushBack ops) (new ti averaging) = .ok f ∧
        Inv ops ti frames averaging s f := by
  intro s
  induction s with
  | zero => intro _; exact ⟨_, rfl, inv_new ops ti frames averaging⟩
  | succ s ih =>
    intro hlt
    obtain ⟨f, h1, h2⟩ := ih (by omega)
    obtain ⟨f', h3, h4⟩ := inv_push hs hav h2 (show s < frames.length by omega)
    refine ⟨f', ?_, h4⟩
    rw [List.take_succ_eq_append_getElem (by omega), List.foldlM_append, h1, ok_bind,
      List.foldlM_cons, h3, ok_bind, List.foldlM_nil, pure_eq_ok]

/-- Without averaging, the frames are copied. -/
theorem copy_all {ops : FieldOps V} {ti : TrajIndex} {frames : List (List V)}
    (hs : Sound ti frames) {averaging : Nat} (hav : averaging / 2 = 0) :
    ∀ (s : Nat), s ≤ frames.length →
      ∃ f, (frames.take s).foldlM (pushBack ops) (new ti averaging) = .ok f ∧
        f.averaging = averaging ∧ f.actualTime = s ∧ f.values.length = frames.length ∧
        (∀ t, t < s → f.values[t]? = frames[t]?) ∧
        ∀ t r, f.values[t]? = some r → r.length = npos ti t := by
  intro s
  induction s with
  | zero =>
    intro _
    refine ⟨_, rfl, rfl, rfl, ?_, by omega, ?_⟩
    · simp [new, hs.frameCount]
    · intro t r hr
      simp only [new, List.getElem?_map] at hr
      unfold npos
      cases hrow : ti.inverse[t]? with
      | none => rw [hrow] at hr; cases hr
      | some row => rw [hrow] at hr; cases hr; simp
  | succ s ih =>
    intro hlt
    obtain ⟨f, h1, h2, h3, h4, h5, h6⟩ := ih (by omega)
    have hsl : s < frames.length := by omega
    rw [List.take_succ_eq_append_getElem (by omega), List.foldlM_append, h1, ok_bind,
      List.foldlM_cons]
    have hsv : s < f.values.length := by omega
    have hr := h6 s f.values[s] (by simp [hsv])
    have hfl := hs.sizes s hsl
    unfold pushBack
    dsimp only
    rw [h2, h3, if_pos hav, getR_of_lt hsv, ok_bind]
    unfold copyInto
    rw [if_pos (by omega), ok_bind, List.drop_of_length_le (by omega), List.append_nil]
    unfold setR
    rw [if_pos hsv, ok_bind, pure_eq_ok, ok_bind, List.foldlM_nil, pure_eq_ok]
    refine ⟨_, rfl, rfl, rfl, by simp [h4], ?_, ?_⟩
    · intro t ht
      dsimp only
      rw [List.getElem?_set]
      by_cases hts : s = t
      · subst hts; simp [hsv, hsl]
      · rw [if_neg hts]; exact h5 t (by omega)
    · intro t r
      dsimp only
      rw [List.getElem?_set]
      by_cases hts : s = t
      · subst hts; simp only [if_true, hsv]; rintro h; injection h with h; rw [← h]; exact hfl
      · rw [if_neg hts]; exact h6 t r

end DynField

end Colloids
