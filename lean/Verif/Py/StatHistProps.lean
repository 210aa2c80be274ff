import Mathlib.Algebra.Order.Field.Basic
import Mathlib.Algebra.Order.Ring.Rat
import Mathlib.Algebra.Order.BigOperators.Group.List
import Mathlib.Tactic.Linarith
import Mathlib.Tactic.NormNum
import Mathlib.Tactic.Ring
import Verif.CommonLemmas
import Verif.Index.Lemmas
import Verif.Py.StatHistModel

/-!
# Decimated histograms, mean maps
-/

namespace Colloids
namespace Py
namespace StatHist

/-! ### decimate_hist -/

section Decimate

variable {F : Type} [Field F] [LinearOrder F]

omit [LinearOrder F] in
/-- `row` is the union of the lines of `b`: the first bin, the sums of the other columns -/
def IsMerge (c : Nat) (row : List F) (b : List (List F)) : Prop :=
  row.length = c ∧ (∃ r0, b.head? = some r0 ∧ row.getD 0 0 = r0.getD 0 0) ∧
    ∀ j, 1 ≤ j → j < c → row.getD j 0 = (b.map fun r => r.getD j 0).sum

omit [LinearOrder F] in
theorem IsMerge_single (row : List F) : IsMerge row.length row [row] := by
  refine ⟨rfl, ⟨row, rfl, rfl⟩, fun j _ _ => ?_⟩
  simp

omit [LinearOrder F] in
theorem IsMerge_add (c : Nat) (hc : 1 ≤ c) (row l : List F) (b : List (List F)) (h : IsMerge c row b) (hl : l.length = c) :
    IsMerge c (addTail row l) (b ++ [l]) := by
  obtain ⟨h1, ⟨r0, h2, h3⟩, h4⟩ := h
  cases row with
  | nil => simp at h1; omega
  | cons x row =>
    cases l with
    | nil => simp at hl; omega
    | cons y l =>
      simp only [List.length_cons] at h1 hl
      refine ⟨?_, ⟨r0, ?_, ?_⟩, ?_⟩
      · simp only [addTail, List.length_cons, List.length_zipWith]
        omega
      · cases b with
        | nil => simp at h2
        | cons => simpa using h2
      · simpa [addTail] using h3
      · intro j hj hjc
        obtain ⟨j, rfl⟩ : ∃ i, j = i + 1 := ⟨j - 1, by omega⟩
        rw [List.map_append, List.sum_append, ← h4 (j + 1) hj hjc]
        simp only [addTail, List.getD_cons_succ, List.map_cons, List.map_nil, List.sum_cons, List.sum_nil, add_zero]
        rw [List.getD_eq_getElem?_getD, List.getD_eq_getElem?_getD, List.getD_eq_getElem?_getD, List.getElem?_zipWith,
          List.getElem?_eq_getElem (by omega : j < row.length), List.getElem?_eq_getElem (by omega : j < l.length)]
        rfl

/-- what is true before line `i` -/
structure Inv (c col : Nat) (thr : F) (h : List (List F)) (i : Nat) (st : List (List F) × List Nat) (bs : List (List (List F))) (b : List (List F))
    (rs : List Nat) (r : Nat) : Prop where
  flat : bs.flatten ++ b = h.take i
  ret : st.2 = rs ++ [r]
  sorted : ∀ x ∈ rs, x < r
  lt : r < i
  rows : List.Forall₂ (fun x b => ∃ row, st.1[x]? = some row ∧ IsMerge c row b) rs bs
  row : ∃ row, st.1[r]? = some row ∧ IsMerge c row b
  rest : ∀ k, i ≤ k → st.1[k]? = h[k]?
  len : st.1.length = h.length
  full : ∀ b ∈ bs, thr < (b.map fun r => r.getD col 0).sum
  greedy : ∀ b' ∈ bs ++ [b], ∀ n, 0 < n → n < b'.length → ((b'.take n).map fun r => r.getD col 0).sum ≤ thr

theorem decimateOne_inv (c col : Nat) (hcol : 1 ≤ col) (hc : col < c) (thr : F) (h : List (List F)) (hrect : ∀ r ∈ h, r.length = c) (i : Nat) (hi : i < h.length)
    (st : List (List F) × List Nat) (bs b rs r) (hI : Inv c col thr h i st bs b rs r) :
    ∃ st' bs' b' rs' r', decimateOne col thr st i = .ok st' ∧ Inv c col thr h (i + 1) st' bs' b' rs' r' := by
  obtain ⟨row, hrow, hm⟩ := hI.row
  have e1 : idx st.1 i = .ok h[i] := by
    unfold idx
    rw [hI.rest i le_rfl, List.getElem?_eq_getElem hi]
  have e2 : last st.2 = .ok r := by
    unfold last
    rw [hI.ret]
    simp
  have e3 : idx st.1 r = .ok row := by
    unfold idx
    rw [hrow]
  have e4 : idx row col = .ok (row.getD col 0) := by
    have : col < row.length := by rw [hm.1]; exact hc
    unfold idx
    rw [List.getElem?_eq_getElem this, List.getD_eq_getElem?_getD, List.getElem?_eq_getElem this]
    rfl
  have hv := hm.2.2 col hcol hc
  have hli : h[i].length = c := hrect _ (List.getElem_mem hi)
  have htake : h.take (i + 1) = h.take i ++ [h[i]] := by
    rw [List.take_succ, List.getElem?_eq_getElem hi]
    rfl
  have hbne : b ≠ [] := by
    obtain ⟨_, ⟨r0, h2, _⟩, _⟩ := hm
    rintro rfl
    simp at h2
  unfold decimateOne
  rw [e1, ok_bind, e2, ok_bind, e3, ok_bind, e4, ok_bind]
  by_cases hlt : thr < row.getD col 0
  · rw [if_pos hlt]
    refine ⟨_, bs ++ [b], [h[i]], rs ++ [r], i, rfl, ⟨?_, ?_, ?_, ?_, ?_, ?_, ?_, ?_, ?_, ?_⟩⟩
    · rw [htake, ← hI.flat]
      simp
    · rw [hI.ret]
    · intro x hx
      rcases List.mem_append.1 hx with hx | hx
      · exact (hI.sorted x hx).trans hI.lt
      · rw [List.mem_singleton.1 hx]; exact hI.lt
    · omega
    · exact List.rel_append hI.rows (List.Forall₂.cons ⟨row, hrow, hm⟩ List.Forall₂.nil)
    · refine ⟨h[i], ?_, ?_⟩
      · change st.1[i]? = _
        rw [hI.rest i le_rfl, List.getElem?_eq_getElem hi]
      · have := IsMerge_single h[i]
        rwa [hli] at this
    · exact fun k hk => hI.rest k (by omega)
    · exact hI.len
    · intro b' hb'
      rcases List.mem_append.1 hb' with hb' | hb'
      · exact hI.full b' hb'
      · rw [List.mem_singleton.1 hb', ← hv]
        exact hlt
    · intro b' hb' n h0 hn
      rcases List.mem_append.1 hb' with hb' | hb'
      · exact hI.greedy b' hb' n h0 hn
      · rw [List.mem_singleton.1 hb'] at hn
        simp at hn
        omega
  · rw [if_neg hlt]
    have hrlen : r < st.1.length := (List.getElem?_eq_some_iff.1 hrow).1
    refine ⟨_, bs, b ++ [h[i]], rs, r, rfl, ⟨?_, ?_, ?_, ?_, ?_, ?_, ?_, ?_, ?_, ?_⟩⟩
    · rw [htake, ← hI.flat]
      simp
    · exact hI.ret
    · exact hI.sorted
    · have := hI.lt; omega
    · have key : ∀ xs bs, List.Forall₂ (fun x b => ∃ row, st.1[x]? = some row ∧ IsMerge c row b) xs bs → (∀ x ∈ xs, x < r) →
          List.Forall₂ (fun x b => ∃ row', (st.1.set r (addTail row h[i]))[x]? = some row' ∧ IsMerge c row' b) xs bs := by
        intro xs bs hx
        induction hx with
        | nil => exact fun _ => List.Forall₂.nil
        | cons ha _ ih =>
          intro hs
          obtain ⟨row', h1, h2⟩ := ha
          have h3 := hs _ (List.mem_cons_self ..)
          exact List.Forall₂.cons ⟨row', by rw [List.getElem?_set_ne (by omega)]; exact h1, h2⟩ (ih fun x hx => hs x (List.mem_cons_of_mem _ hx))
      exact key rs bs hI.rows hI.sorted
    · refine ⟨addTail row h[i], ?_, IsMerge_add c (by omega) row h[i] b hm hli⟩
      dsimp only
      rw [List.getElem?_set_self hrlen]
    · intro k hk
      have := hI.lt
      dsimp only
      rw [List.getElem?_set_ne (by omega)]
      exact hI.rest k (by omega)
    · dsimp only
      rw [List.length_set]
      exact hI.len
    · exact hI.full
    · intro b' hb' n h0 hn
      rcases List.mem_append.1 hb' with hb' | hb'
      · exact hI.greedy b' (List.mem_append_left _ hb') n h0 hn
      · rw [List.mem_singleton.1 hb'] at hn ⊢
        rw [List.length_append, List.length_singleton] at hn
        rw [List.take_append_of_le_length (by omega)]
        rcases Nat.lt_or_ge n b.length with hnb | hnb
        · exact hI.greedy b (by simp) n h0 hnb
        · have : n = b.length := by omega
          rw [this, List.take_length, ← hv]
          exact not_lt.1 hlt

theorem mapM_forall2 {β γ : Type} (l : List β) (P : β → γ → Prop) (xs : List Nat) (bs : List γ)
    (h : List.Forall₂ (fun x b => ∃ row, l[x]? = some row ∧ P row b) xs bs) : ∃ rows, xs.mapM (idx l) = .ok rows ∧ List.Forall₂ P rows bs := by
  induction h with
  | nil => exact ⟨[], rfl, List.Forall₂.nil⟩
  | cons hx _ ih =>
    obtain ⟨row, h1, h2⟩ := hx
    obtain ⟨rows, h3, h4⟩ := ih
    refine ⟨row :: rows, ?_, List.Forall₂.cons h2 h4⟩
    rw [List.mapM_cons, h3]
    unfold idx
    rw [h1]
    rfl

/-- **C211** `decimate_hist` cuts the lines in consecutive groups and returns the union of each group: the bin of its first line and the sums of the other columns.  All
groups but the last one have more than `thr`, and no group could be shorter. -/
theorem C211_decimate (c col : Nat) (hcol : 1 ≤ col) (hc : col < c) (thr : F) (h : List (List F)) (hne : h ≠ []) (hrect : ∀ r ∈ h, r.length = c) :
    ∃ ret h' groups, decimateHist col thr h = .ok (ret, h') ∧ groups.flatten = h ∧ List.Forall₂ (IsMerge c) ret groups ∧
      (∀ g ∈ groups.dropLast, thr < (g.map fun r => r.getD col 0).sum) ∧
      ∀ g ∈ groups, ∀ n, 0 < n → n < g.length → ((g.take n).map fun r => r.getD col 0).sum ≤ thr := by
  have hpos : 0 < h.length := List.length_pos_of_ne_nil hne
  have hloop : ∀ m, m + 1 ≤ h.length → ∃ st bs b rs r, (List.range' 1 m).foldlM (decimateOne col thr) (h, [0]) = .ok st ∧ Inv c col thr h (m + 1) st bs b rs r := by
    intro m hm
    induction m with
    | zero =>
      refine ⟨(h, [0]), [], [h[0]], [], 0, rfl, ⟨?_, rfl, by simp, by omega, List.Forall₂.nil, ⟨h[0], ?_, ?_⟩, fun _ _ => rfl, rfl, by simp, ?_⟩⟩
      · cases h with
        | nil => exact absurd rfl hne
        | cons => simp
      · exact List.getElem?_eq_getElem hpos
      · have := IsMerge_single h[0]
        rwa [hrect _ (List.getElem_mem hpos)] at this
      · intro b hb n h0 hn
        simp only [List.nil_append, List.mem_singleton] at hb
        subst hb
        simp at hn
        omega
    | succ m ih =>
      obtain ⟨st, bs, b, rs, r, h1, h2⟩ := ih (by omega)
      obtain ⟨st', bs', b', rs', r', h3, h4⟩ := decimateOne_inv c col hcol hc thr h hrect (m + 1) (by omega) st bs b rs r h2
      refine ⟨st', bs', b', rs', r', ?_, h4⟩
      rw [List.range'_1_concat, List.foldlM_append, h1, ok_bind, List.foldlM_cons, Nat.add_comm 1 m, h3]
      rfl
  obtain ⟨st, bs, b, rs, r, h1, hI⟩ := hloop (h.length - 1) (by omega)
  obtain ⟨ret, h2, h3⟩ := mapM_forall2 st.1 (IsMerge c) st.2 (bs ++ [b]) (by
    rw [hI.ret]
    exact List.rel_append hI.rows (List.Forall₂.cons hI.row List.Forall₂.nil))
  have e0 : idx h 0 = .ok h[0] := by
    unfold idx
    rw [List.getElem?_eq_getElem hpos]
  refine ⟨ret, st.1, bs ++ [b], ?_, ?_, h3, ?_, hI.greedy⟩
  · unfold decimateHist
    rw [e0, ok_bind, h1, ok_bind, h2]
    rfl
  · have := hI.flat
    rw [show h.length - 1 + 1 = h.length by omega, List.take_length] at this
    rw [← this]
    simp
  · rw [List.dropLast_concat]
    exact hI.full

example : ∀ r ∈ [[(0 : ℚ), 5], [1, 6], [2, 20]], r.length = 2 := by simp

/-- **C211** No count is lost: the total of each column is kept. -/
theorem C211_total (c col : Nat) (hcol : 1 ≤ col) (hc : col < c) (thr : F) (h : List (List F)) (hne : h ≠ []) (hrect : ∀ r ∈ h, r.length = c) :
    ∃ ret h', decimateHist col thr h = .ok (ret, h') ∧ ∀ j, 1 ≤ j → j < c → (ret.map fun r => r.getD j 0).sum = (h.map fun r => r.getD j 0).sum := by
  obtain ⟨ret, h', groups, h1, h2, h3, -, -⟩ := C211_decimate c col hcol hc thr h hne hrect
  refine ⟨ret, h', h1, fun j hj hjc => ?_⟩
  rw [← h2]
  clear h1 h2
  induction h3 with
  | nil => rfl
  | cons hx _ ih => rw [List.map_cons, List.sum_cons, List.flatten_cons, List.map_append, List.sum_append, ih, hx.2.2 j hj hjc]

/-- **C211** Counterexample: the last bin is kept whatever its number is. -/
theorem C211_last_counterexample : decimateHist 1 (10 : ℚ) [[0, 20], [1, 3]] = .ok ([[0, 20], [1, 3]], [[0, 20], [1, 3]]) := by
  decide +kernel

/-- **C211** Counterexample: the array of the caller is changed, so that a second call on the same array counts some lines twice. -/
theorem C211_alias_counterexample :
    decimateHist 1 (10 : ℚ) [[0, 5], [1, 6], [2, 20]] = .ok ([[0, 11], [2, 20]], [[0, 11], [1, 6], [2, 20]]) ∧
    decimateHist 1 (10 : ℚ) [[0, 11], [1, 6], [2, 20]] = .ok ([[0, 11], [1, 26]], [[0, 11], [1, 26], [2, 20]]) := by
  decide +kernel

end Decimate

/-! ### Mean maps -/

section Mean

variable {F : Type} [Field F] [LinearOrder F]

theorem edges_mono (b : List F) (h : edgesOk b = true) (i j : Nat) (hij : i ≤ j) (hj : j < b.length) : b.getD i 0 ≤ b.getD j 0 := by
  unfold edgesOk at h
  rw [List.all_eq_true] at h
  induction j with
  | zero => rw [show i = 0 by omega]
  | succ j ih =>
    rcases Nat.lt_or_ge i (j + 1) with hlt | hge
    · have := h j (List.mem_range.2 (by omega))
      exact (ih (by omega) (by omega)).trans (of_decide_eq_true this)
    · rw [show i = j + 1 by omega]

omit [Field F] in
theorem half_open_count (e : Nat → F) (x : F) (N : Nat) (hm : ∀ i j, i ≤ j → j ≤ N → e i ≤ e j) :
    ((List.range N).filter fun k => decide (e k ≤ x) && decide (x < e (k + 1))).length = if e 0 ≤ x ∧ x < e N then 1 else 0 := by
  induction N with
  | zero =>
    rw [if_neg (fun h => absurd h.2 (not_lt.2 h.1))]
    rfl
  | succ N ih =>
    rw [List.range_succ, List.filter_append, List.length_append, ih (fun i j hij hj => hm i j hij (by omega))]
    have h1 := hm 0 N (by omega) (by omega)
    have h2 := hm N (N + 1) (by omega) (by omega)
    by_cases a : e 0 ≤ x
    · by_cases b : x < e N
      · rw [if_pos ⟨a, b⟩, if_pos ⟨a, b.trans_le h2⟩]
        simp [not_le.2 b]
      · rw [if_neg (fun h => b h.2)]
        by_cases c : x < e (N + 1)
        · rw [if_pos ⟨a, c⟩]
          simp [not_lt.1 b, c]
        · rw [if_neg (fun h => c h.2)]
          simp [c]
    · rw [if_neg (fun h => a h.1), if_neg (fun h => a h.1)]
      have : ¬ e N ≤ x := fun h => a (h1.trans h)
      simp [this]

/-- each number between the first and the last edge is in one bin -/
theorem bin_count (b : List F) (h : edgesOk b = true) (h2 : 2 ≤ b.length) (x : F) :
    ((List.range (b.length - 1)).filter fun k => inBin b k x).length = if b.getD 0 0 ≤ x ∧ x ≤ b.getD (b.length - 1) 0 then 1 else 0 := by
  obtain ⟨M, hM⟩ : ∃ M, b.length = M + 2 := ⟨b.length - 2, by omega⟩
  rw [hM, show M + 2 - 1 = M + 1 by omega, List.range_succ, List.filter_append, List.length_append]
  have hcongr : (List.range M).filter (fun k => inBin b k x) = (List.range M).filter fun k => decide (b.getD k 0 ≤ x) && decide (x < b.getD (k + 1) 0) := by
    apply List.filter_congr
    intro k hk
    have hk := List.mem_range.1 hk
    unfold inBin
    rw [hM, show decide (k + 2 = M + 2) = false by simp; omega]
    simp
  rw [hcongr, half_open_count (fun k => b.getD k 0) x M (fun i j hij hj => edges_mono b h i j hij (by omega))]
  have h1 := edges_mono b h 0 M (by omega) (by omega)
  have h3 := edges_mono b h M (M + 1) (by omega) (by omega)
  have hl : ([M].filter fun k => inBin b k x).length = if b.getD M 0 ≤ x ∧ x ≤ b.getD (M + 1) 0 then 1 else 0 := by
    unfold inBin
    rw [List.filter_singleton, hM]
    by_cases p : b.getD M 0 ≤ x
    · by_cases q : x ≤ b.getD (M + 1) 0
      · simp only [if_pos (⟨p, q⟩ : b.getD M 0 ≤ x ∧ x ≤ b.getD (M + 1) 0), decide_eq_true p, decide_eq_true q]
        simp
      · have : ¬ x < b.getD (M + 1) 0 := fun h => q h.le
        rw [if_neg (fun h => q h.2), decide_eq_false q, decide_eq_false this]
        simp
    · rw [if_neg (fun h => p h.1), decide_eq_false p]
      simp
  rw [hl]
  by_cases p : b.getD M 0 ≤ x
  · rw [if_neg (fun h => absurd h.2 (not_lt.2 p))]
    by_cases q : x ≤ b.getD (M + 1) 0
    · rw [if_pos ⟨p, q⟩, if_pos ⟨h1.trans p, q⟩]
    · rw [if_neg (fun h => q h.2), if_neg (fun h => q h.2)]
  · rw [if_neg (c := b.getD M 0 ≤ x ∧ x ≤ b.getD (M + 1) 0) (fun h => p h.1)]
    have hlt := not_le.1 p
    by_cases q : b.getD 0 0 ≤ x
    · rw [if_pos ⟨q, hlt⟩, if_pos ⟨q, (hlt.trans_le h3).le⟩]
    · rw [if_neg (fun h => q h.1), if_neg (fun h => q h.1)]

/-- **C211** Histograms lose nothing between their first and last edges: the sum over the bins of the weights is that of the data in this interval. -/
theorem C211_histogram (b : List F) (h : edgesOk b = true) (h2 : 2 ≤ b.length) (data : List (F × F)) :
    (histogramW b data).sum = ((data.filter fun y => decide (b.getD 0 0 ≤ y.1 ∧ y.1 ≤ b.getD (b.length - 1) 0)).map Prod.snd).sum := by
  induction data with
  | nil => simp [histogramW]
  | cons y data ih =>
    have hone : ∀ l : List Nat, (l.map fun k => (((y :: data).filter fun y => inBin b k y.1).map Prod.snd).sum).sum =
        ((l.filter fun k => inBin b k y.1).length : F) * y.2 + (l.map fun k => ((data.filter fun y => inBin b k y.1).map Prod.snd).sum).sum := by
      intro l
      induction l with
      | nil => simp
      | cons k l ihl =>
        rw [List.map_cons, List.sum_cons, ihl, List.map_cons, List.sum_cons]
        by_cases hk : inBin b k y.1 = true
        · rw [List.filter_cons_of_pos (a := y) (p := fun y => inBin b k y.1) hk, List.filter_cons_of_pos (a := k) (p := fun k => inBin b k y.1) hk, List.map_cons,
            List.sum_cons, List.length_cons]
          push_cast
          ring
        · rw [List.filter_cons_of_neg (a := y) (p := fun y => inBin b k y.1) hk, List.filter_cons_of_neg (a := k) (p := fun k => inBin b k y.1) hk]
          ring
    unfold histogramW at ih ⊢
    rw [hone, bin_count b h h2, ih]
    by_cases hy : b.getD 0 0 ≤ y.1 ∧ y.1 ≤ b.getD (b.length - 1) 0
    · rw [if_pos hy, List.filter_cons_of_pos (by simpa using hy), List.map_cons, List.sum_cons]
      simp
    · rw [if_neg hy, List.filter_cons_of_neg (by simpa using hy)]
      simp

example : edgesOk [(0 : ℚ), 1, 3] = true := by decide +kernel

theorem histogramN_get (b x : List F) (k : Nat) (hk : k < b.length - 1) : (histogramN b x).getD k 0 = (x.filter fun y => inBin b k y).length := by
  unfold histogramN
  rw [List.getD_eq_getElem?_getD, List.getElem?_map, List.getElem?_range hk]
  rfl

theorem histogramW_get (b : List F) (d : List (F × F)) (k : Nat) (hk : k < b.length - 1) :
    (histogramW b d).getD k 0 = ((d.filter fun y => inBin b k y.1).map Prod.snd).sum := by
  unfold histogramW
  rw [List.getD_eq_getElem?_getD, List.getElem?_map, List.getElem?_range hk]
  rfl

omit [Field F] [LinearOrder F] in
theorem filter_zip_length (p : F → Bool) (x values : List F) (h : x.length = values.length) :
    (x.filter p).length = ((x.zip values).filter fun y => p y.1).length := by
  induction x generalizing values with
  | nil => simp
  | cons a x ih =>
    cases values with
    | nil => simp at h
    | cons w values =>
      have := ih values (by simpa using h)
      rw [List.zip_cons_cons]
      by_cases hp : p a = true
      · rw [List.filter_cons_of_pos hp, List.filter_cons_of_pos (a := (a, w)) (p := fun y => p y.1) hp, List.length_cons, List.length_cons, this]
      · rw [List.filter_cons_of_neg hp, List.filter_cons_of_neg (a := (a, w)) (p := fun y => p y.1) hp, this]

variable [IsStrictOrderedRing F]

/-- **C211** `meanMap1D`: each line stands for a bin that is not empty, with its lower edge, its number of points and the mean of their values, that is between
the bounds of the values. -/
theorem C211_mean (x values b : List F) (hb : edgesOk b = true) (hl : x.length = values.length) (lo hi : F) (hv : ∀ v ∈ values, lo ≤ v ∧ v ≤ hi) :
    ∃ out, meanMap1D x values b = .ok out ∧ ∀ y ∈ out, ∃ k < b.length - 1, y.1 = b.getD k 0 ∧ 0 < y.2.2 ∧
      y.2.2 = (x.filter fun u => inBin b k u).length ∧
      y.2.1 * (y.2.2 : F) = (((x.zip values).filter fun u => inBin b k u.1).map Prod.snd).sum ∧ lo ≤ y.2.1 ∧ y.2.1 ≤ hi := by
  unfold meanMap1D
  rw [hb]
  simp only [Bool.not_true, Bool.false_eq_true, if_false, hl, ne_eq, not_true]
  refine ⟨_, rfl, ?_⟩
  intro y hy
  obtain ⟨k, hk, rfl⟩ := List.mem_map.1 hy
  obtain ⟨hk1, hk2⟩ := List.mem_filter.1 hk
  have hk1 := List.mem_range.1 hk1
  have hk2 := of_decide_eq_true hk2
  dsimp only
  have hn := histogramN_get b x k hk1
  have hw := histogramW_get b (x.zip values) k hk1
  have hpos : (0 : F) < ((histogramN b x).getD k 0 : F) := by exact_mod_cast hk2
  have hcount : (histogramN b x).getD k 0 = (((x.zip values).filter fun u => inBin b k u.1).map Prod.snd).length := by
    rw [hn, List.length_map, filter_zip_length (inBin b k) x values hl]
  have hbnd : ∀ l : List F, (∀ v ∈ l, lo ≤ v ∧ v ≤ hi) → (l.length : F) * lo ≤ l.sum ∧ l.sum ≤ (l.length : F) * hi := by
    intro l hl
    induction l with
    | nil => simp
    | cons a l ih =>
      obtain ⟨a1, a2⟩ := ih fun v hv => hl v (List.mem_cons_of_mem _ hv)
      obtain ⟨b1, b2⟩ := hl a (List.mem_cons_self ..)
      rw [List.sum_cons, List.length_cons]
      push_cast
      constructor <;> linarith
  obtain ⟨s1, s2⟩ := hbnd _ (by
    intro v hv'
    obtain ⟨u, hu, rfl⟩ := List.mem_map.1 hv'
    exact hv _ (List.of_mem_zip (List.mem_filter.1 hu).1).2 : ∀ v ∈ ((x.zip values).filter fun u => inBin b k u.1).map Prod.snd, lo ≤ v ∧ v ≤ hi)
  rw [← hcount] at s1 s2
  refine ⟨k, hk1, rfl, hk2, hn, ?_, ?_, ?_⟩
  · rw [hw, div_mul_cancel₀ _ hpos.ne']
  · rw [hw, le_div_iff₀ hpos]; linarith
  · rw [hw, div_le_iff₀ hpos]; linarith

omit [IsStrictOrderedRing F] in
/-- **C211** Each bin with a point has its line, and the lines are in the order of the bins. -/
theorem C211_bins (x values b : List F) (hb : edgesOk b = true) (hl : x.length = values.length) :
    ∃ out, meanMap1D x values b = .ok out ∧
      out.map Prod.fst = ((List.range (b.length - 1)).filter fun k => x.any fun u => inBin b k u).map fun k => b.getD k 0 := by
  unfold meanMap1D
  rw [hb]
  simp only [Bool.not_true, Bool.false_eq_true, if_false, hl, ne_eq, not_true]
  refine ⟨_, rfl, ?_⟩
  rw [List.map_map]
  have : (List.range (b.length - 1)).filter (fun k => decide (0 < (histogramN b x).getD k 0)) = (List.range (b.length - 1)).filter fun k => x.any fun u => inBin b k u := by
    apply List.filter_congr
    intro k hk
    rw [histogramN_get b x k (List.mem_range.1 hk)]
    rw [Bool.eq_iff_iff, decide_eq_true_eq, List.any_eq_true, List.length_pos_iff_exists_mem]
    simp [List.mem_filter]
  rw [this]
  rfl

/-- **C211** `meanMap` of values that are not negative: a cell is `-1` when it has no point and only then. -/
theorem C211_map_partial (bx bY : List F) (data : List ((F × F) × F)) (hpos : ∀ d ∈ data, 0 ≤ d.2) (i j : Nat) :
    meanMapCell bx bY data i j = -1 ↔ ∀ d ∈ data, ¬ (inBin bx i d.1.1 = true ∧ inBin bY j d.1.2 = true) := by
  unfold meanMapCell
  dsimp only
  have hmem : (∀ d ∈ data, ¬ (inBin bx i d.1.1 = true ∧ inBin bY j d.1.2 = true)) ↔
      (data.filter fun d => inBin bx i d.1.1 && inBin bY j d.1.2).length = 0 := by
    rw [List.length_eq_zero_iff, List.filter_eq_nil_iff]
    simp
  rw [hmem]
  by_cases h0 : (data.filter fun d => inBin bx i d.1.1 && inBin bY j d.1.2).length = 0
  · simp [h0]
  · rw [if_neg h0]
    simp only [h0, iff_false]
    intro he
    have hs : 0 ≤ ((data.filter fun d => inBin bx i d.1.1 && inBin bY j d.1.2).map Prod.snd).sum := by
      apply List.sum_nonneg
      intro v hv
      obtain ⟨d, hd, rfl⟩ := List.mem_map.1 hv
      exact hpos d (List.mem_filter.1 hd).1
    have hq : 0 ≤ ((data.filter fun d => inBin bx i d.1.1 && inBin bY j d.1.2).map Prod.snd).sum /
        ((data.filter fun d => inBin bx i d.1.1 && inBin bY j d.1.2).length : F) := div_nonneg hs (Nat.cast_nonneg _)
    rw [he] at hq
    linarith

/-- **C211** Counterexample: the mark of empty cells is also the mean of a cell with a point of value -1. -/
theorem C211_mark_counterexample : meanMapCell [(0 : ℚ), 1] [0, 1] [((0, 0), -1)] 0 0 = -1 := by
  decide +kernel

end Mean

end StatHist
end Py
end Colloids
