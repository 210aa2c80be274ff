import Verif.Mains.VoroModel
import Verif.CommonLemmas
import Verif.Index.Lemmas
import Mathlib.Algebra.Order.Ring.Rat
import Mathlib.Algebra.Field.Rat
import Mathlib.Tactic.NormNum

/-! # C109: the outsides and the bonds of the Voronoi cells -/

namespace Colloids
namespace Mains

/-- Cell `q` is a neighbour of cell `p`. -/
def Touch (cells : List (List Int)) (p q : Nat) : Prop := ∃ row, cells[p]? = some row ∧ (q : Int) ∈ row

/-- Cell `p` is a neighbour of a wall. -/
def AtWall (cells : List (List Int)) (p : Nat) : Prop := ∃ row, cells[p]? = some row ∧ ∃ x ∈ row, x < 0

/-- What a tessellation gives: no neighbour is listed twice, the numbers are those of existing cells, being
neighbours is symmetric, and a cell is not its own neighbour. -/
structure CellsOk (cells : List (List Int)) : Prop where
  sorted : ∀ row ∈ cells, row.Pairwise (· < ·)
  range : ∀ row ∈ cells, ∀ x ∈ row, x < (cells.length : Int)
  symm : ∀ p q, Touch cells p q → Touch cells q p
  irrefl : ∀ p, ¬ Touch cells p p

/-! ### lower_bound -/

theorem lowerBoundBy_spec (lt : Int → Bool) (l : List Int)
    (hs : ∀ (i j : Nat) (x y : Int), i < j → l[i]? = some x → l[j]? = some y → lt y = true → lt x = true) :
    ∀ (fuel first len : Nat), len ≤ fuel → first + len ≤ l.length →
      (∀ (i : Nat) (x : Int), l[i]? = some x → i < first → lt x = true) →
      (∀ (i : Nat) (x : Int), l[i]? = some x → first + len ≤ i → lt x = false) →
      ∀ (i : Nat) (x : Int), l[i]? = some x → (i < lowerBoundBy lt l fuel first len ↔ lt x = true) := by
  intro fuel
  induction fuel with
  | zero =>
    intro first len h0 h1 h2 h3 i x hx
    have hl : len = 0 := by omega
    subst hl
    unfold lowerBoundBy
    constructor
    · exact h2 i x hx
    · intro h
      by_contra hc
      rw [h3 i x hx (by omega)] at h
      simp at h
  | succ fuel ih =>
    intro first len h0 h1 h2 h3 i x hx
    unfold lowerBoundBy
    by_cases hl : len = 0
    · subst hl
      rw [if_pos rfl]
      constructor
      · exact h2 i x hx
      · intro h
        by_contra hc
        rw [h3 i x hx (by omega)] at h
        simp at h
    · rw [if_neg hl]
      have hh : first + len / 2 < l.length := by omega
      have hget : l[first + len / 2]? = some (l.getD (first + len / 2) 0) := by
        rw [List.getD_eq_getElem?_getD, List.getElem?_eq_getElem hh]; rfl
      dsimp only
      cases hv : lt (l.getD (first + len / 2) 0) with
      | true =>
        rw [if_pos rfl]
        refine ih _ _ (by omega) (by omega) ?_ ?_ i x hx
        · intro j y hy hj
          rcases Nat.lt_or_ge j (first + len / 2) with h | h
          · exact hs j _ y _ h hy hget hv
          · have : j = first + len / 2 := by omega
            subst this
            rw [hget] at hy
            cases hy
            exact hv
        · intro j y hy hj
          exact h3 j y hy (by omega)
      | false =>
        rw [if_neg (by simp)]
        refine ih _ _ (by omega) (by omega) h2 ?_ i x hx
        intro j y hy hj
        rcases Nat.lt_or_ge (first + len / 2) j with h | h
        · by_contra hc
          rw [Bool.not_eq_false] at hc
          have := hs _ j _ y h hget hy hc
          rw [hv] at this
          simp at this
        · have : j = first + len / 2 := by omega
          subst this
          rw [hget] at hy
          cases hy
          exact hv

theorem drop_eq_filter (lt : Int → Bool) : ∀ (l : List Int) (k : Nat),
    (∀ (i : Nat) (x : Int), l[i]? = some x → (i < k ↔ lt x = true)) →
    l.drop k = l.filter (fun x => !lt x) := by
  intro l
  induction l with
  | nil => intro k _; simp
  | cons a l ih =>
    intro k h
    have ha := h 0 a (by simp)
    cases k with
    | zero =>
      have hf : lt a = false := by simpa using ha
      rw [List.drop_zero, List.filter_cons_of_pos (by simp [hf])]
      congr 1
      have := ih 0 (fun i x hx => by
        have := h (i + 1) x (by simpa using hx)
        simpa using this)
      simpa using this
    | succ k =>
      have ht : lt a = true := by simpa using ha
      rw [List.drop_succ_cons, List.filter_cons_of_neg (by simp [ht])]
      exact ih k (fun i x hx => by
        have := h (i + 1) x (by simpa using hx)
        simpa using this)

/-- `lower_bound` on a range where the comparison is first true and then false. -/
theorem fromLowerBoundBy_eq {lt : Int → Bool} {l : List Int}
    (hs : ∀ (i j : Nat) (x y : Int), i < j → l[i]? = some x → l[j]? = some y → lt y = true → lt x = true) :
    fromLowerBoundBy lt l = l.filter (fun x => !lt x) := by
  unfold fromLowerBoundBy
  refine drop_eq_filter lt l _ ?_
  refine lowerBoundBy_spec lt l hs _ 0 _ (Nat.le_refl _) (by omega) ?_ ?_
  · intro i x _ h; omega
  · intro i x hx h
    have := (List.getElem?_eq_some_iff.1 hx).1
    omega

theorem pairwise_getElem? {l : List Int} (hs : l.Pairwise (· < ·)) {i j : Nat} {x y : Int} (hij : i < j)
    (hx : l[i]? = some x) (hy : l[j]? = some y) : x < y := by
  obtain ⟨hi, rfl⟩ := List.getElem?_eq_some_iff.1 hx
  obtain ⟨hj, rfl⟩ := List.getElem?_eq_some_iff.1 hy
  exact List.pairwise_iff_getElem.1 hs i j hi hj hij

theorem fromLowerBound_zero {l : List Int} (hs : l.Pairwise (· < ·)) :
    fromLowerBoundBy (fun x => decide (x < 0)) l = l.filter (fun x => decide (0 ≤ x)) := by
  rw [fromLowerBoundBy_eq]
  · congr 1
    funext x
    by_cases h : x < 0
    · simp [h, Int.not_le.2 h]
    · simp [h, Int.not_lt.1 h]
  · intro i j x y hij hx hy h
    have := pairwise_getElem? hs hij hx hy
    simp only [decide_eq_true_eq] at h ⊢
    omega

theorem toSize_ofNat {q : Nat} (h : q < szMod) : toSize (q : Int) = q := by
  unfold toSize
  rw [Int.emod_eq_of_lt (by omega) (by omega)]
  rfl

/-! ### Outsides -/

theorem frontNeg_ok {row : List Int} (hs : row.Pairwise (· < ·)) (hne : row ≠ []) :
    ∃ w, frontNeg row = .ok w ∧ (w = true ↔ ∃ x ∈ row, x < 0) := by
  cases row with
  | nil => exact absurd rfl hne
  | cons a l =>
    refine ⟨_, rfl, ?_⟩
    rw [decide_eq_true_eq]
    constructor
    · intro h; exact ⟨a, by simp, h⟩
    · rintro ⟨x, hx, h⟩
      rcases List.mem_cons.1 hx with rfl | hx
      · exact h
      · have := (List.pairwise_cons.1 hs).1 x hx; omega

/-- **C109** (part: when each cell has a neighbour or a wall) The program lists as outside, in increasing order
and once, the particles whose cell is at a wall, and as second outside these and the particles whose cell
touches one of theirs. -/
theorem C109_outsides_partial {cells : List (List Int)} (hc : CellsOk cells) (hn : cells.length ≤ szMod)
    (hne : ∀ row ∈ cells, row ≠ []) :
    ∃ outside second, getOutsides cells = .ok (outside, second) ∧
      outside.Pairwise (· < ·) ∧ second.Pairwise (· < ·) ∧
      (∀ p, p ∈ outside ↔ AtWall cells p) ∧
      ∀ p, p ∈ second ↔ AtWall cells p ∨ ∃ q, Touch cells p q ∧ AtWall cells q := by
  have key : ∀ k, k ≤ cells.length → ∃ o s, (List.range k).foldlM (outsideStep cells) ([], []) = .ok (o, s) ∧
      o.Pairwise (· < ·) ∧ (∀ p, p ∈ o ↔ p < k ∧ AtWall cells p) ∧
      ∀ p, p ∈ s ↔ (p < k ∧ AtWall cells p) ∨ ∃ q, q < k ∧ Touch cells q p ∧ AtWall cells q := by
    intro k
    induction k with
    | zero =>
      intro _
      exact ⟨[], [], rfl, List.Pairwise.nil, by simp, by simp⟩
    | succ k ih =>
      intro hk
      obtain ⟨o, s, h1, h2, h3, h4⟩ := ih (by omega)
      have hrow : cells[k]? = some cells[k] := List.getElem?_eq_getElem (by omega)
      have hmem : cells[k] ∈ cells := List.getElem_mem _
      obtain ⟨w, hw, hwi⟩ := frontNeg_ok (hc.sorted _ hmem) (hne _ hmem)
      have hwall : AtWall cells k ↔ w = true := by
        rw [hwi]
        constructor
        · rintro ⟨row, hr, h⟩
          rw [hrow] at hr; cases hr; exact h
        · intro h; exact ⟨_, hrow, h⟩
      have htouch : ∀ q, Touch cells k q ↔ q ∈ ((fromLowerBoundBy (fun x => decide (x < 0)) cells[k]).map toSize) := by
        intro q
        rw [fromLowerBound_zero (hc.sorted _ hmem), List.mem_map]
        constructor
        · rintro ⟨row, hr, h⟩
          rw [hrow] at hr; cases hr
          have := hc.range _ hmem _ h
          exact ⟨q, by simp [h], toSize_ofNat (by omega)⟩
        · rintro ⟨x, hx, rfl⟩
          rw [List.mem_filter] at hx
          have hx0 : 0 ≤ x := by simpa using hx.2
          have := hc.range _ hmem _ hx.1
          obtain ⟨m, rfl⟩ := Int.eq_ofNat_of_zero_le hx0
          refine ⟨_, hrow, ?_⟩
          rw [toSize_ofNat (by omega)]
          exact hx.1
      rw [List.range_succ, List.foldlM_append, h1, ok_bind]
      simp only [List.foldlM_cons, List.foldlM_nil]
      have hstep : outsideStep cells (o, s) k = .ok (if w then (o ++ [k],
          s ++ k :: (fromLowerBoundBy (fun x => decide (x < 0)) cells[k]).map toSize) else (o, s)) := by
        unfold outsideStep
        rw [getR_ok.2 hrow, ok_bind, hw, ok_bind]
        cases w <;> rfl
      rw [hstep, ok_bind]
      cases w with
      | false =>
        refine ⟨o, s, rfl, h2, ?_, ?_⟩
        · intro p
          rw [h3]
          constructor
          · rintro ⟨a, b⟩; exact ⟨by omega, b⟩
          · rintro ⟨a, b⟩
            have : p ≠ k := by rintro rfl; simp at hwall; exact hwall b
            exact ⟨by omega, b⟩
        · intro p
          rw [h4]
          constructor
          · rintro (⟨a, b⟩ | ⟨q, a, b⟩)
            · exact .inl ⟨by omega, b⟩
            · exact .inr ⟨q, by omega, b⟩
          · rintro (⟨a, b⟩ | ⟨q, a, b⟩)
            · have : p ≠ k := by rintro rfl; simp at hwall; exact hwall b
              exact .inl ⟨by omega, b⟩
            · have : q ≠ k := by rintro rfl; simp at hwall; exact hwall b.2
              exact .inr ⟨q, by omega, b⟩
      | true =>
        have hwk : AtWall cells k := hwall.2 rfl
        refine ⟨o ++ [k], _, rfl, ?_, ?_, ?_⟩
        · rw [List.pairwise_append]
          refine ⟨h2, by simp, ?_⟩
          intro a ha b hb
          have := (h3 a).1 ha
          simp at hb
          omega
        · intro p
          rw [List.mem_append, h3, List.mem_singleton]
          constructor
          · rintro (⟨a, b⟩ | rfl)
            · exact ⟨by omega, b⟩
            · exact ⟨by omega, hwk⟩
          · rintro ⟨a, b⟩
            by_cases e : p = k
            · exact .inr e
            · exact .inl ⟨by omega, b⟩
        · intro p
          rw [List.mem_append, h4, List.mem_cons, ← htouch]
          constructor
          · rintro ((⟨a, b⟩ | ⟨q, a, b⟩) | (rfl | h))
            · exact .inl ⟨by omega, b⟩
            · exact .inr ⟨q, by omega, b⟩
            · exact .inl ⟨by omega, hwk⟩
            · exact .inr ⟨k, by omega, h, hwk⟩
          · rintro (⟨a, b⟩ | ⟨q, a, b⟩)
            · by_cases e : p = k
              · exact .inr (.inl e)
              · exact .inl (.inl ⟨by omega, b⟩)
            · by_cases e : q = k
              · subst e; exact .inr (.inr b.1)
              · exact .inl (.inr ⟨q, by omega, b⟩)
  obtain ⟨o, s, h1, h2, h3, h4⟩ := key cells.length (Nat.le_refl _)
  have hlt : ∀ p, AtWall cells p → p < cells.length := by
    rintro p ⟨row, hr, -⟩
    exact (List.getElem?_eq_some_iff.1 hr).1
  refine ⟨o, sortUnique s, by unfold getOutsides; rw [h1, ok_bind]; rfl, h2, sortUnique_sorted s, ?_, ?_⟩
  · intro p
    rw [h3]
    exact ⟨fun h => h.2, fun h => ⟨hlt p h, h⟩⟩
  · intro p
    rw [mem_sortUnique, h4]
    constructor
    · rintro (h | ⟨q, -, h, h'⟩)
      · exact .inl h.2
      · exact .inr ⟨q, hc.symm _ _ h, h'⟩
    · rintro (h | ⟨q, h, h'⟩)
      · exact .inl ⟨hlt p h, h⟩
      · exact .inr ⟨q, hlt q h', hc.symm _ _ h, h'⟩

/-- **C109** Consequence for the programs that use these files: a particle which is not second outside is not
outside and none of its neighbours is. -/
theorem C109_secondInside {cells : List (List Int)} (hc : CellsOk cells) (hn : cells.length ≤ szMod)
    (hne : ∀ row ∈ cells, row ≠ []) :
    ∃ outside second, getOutsides cells = .ok (outside, second) ∧
      ∀ p, p ∉ second → p ∉ outside ∧ ∀ q, Touch cells p q → q ∉ outside := by
  obtain ⟨o, s, h1, -, -, h4, h5⟩ := C109_outsides_partial hc hn hne
  refine ⟨o, s, h1, ?_⟩
  intro p hp
  rw [h5] at hp
  refine ⟨fun h => hp (.inl ((h4 p).1 h)), ?_⟩
  intro q hq h
  exact hp (.inr ⟨q, hq, (h4 q).1 h⟩)

/-- **C109** is false when a cell has no neighbour at all (a particle put outside of the container, or alone
between periodic boundaries): the first element of an empty vector is read. -/
theorem C109_empty_counterexample {cells : List (List Int)} {p : Nat} (hp : cells[p]? = some [])
    (hfirst : ∀ q < p, ∃ row, cells[q]? = some row ∧ row ≠ []) : getOutsides cells = .error .ub := by
  have hlen := (List.getElem?_eq_some_iff.1 hp).1
  obtain ⟨k, hk⟩ : ∃ k, cells.length = p + 1 + k := ⟨cells.length - (p + 1), by omega⟩
  have key : ∀ j, j ≤ p → ∃ st, (List.range j).foldlM (outsideStep cells) ([], []) = .ok st := by
    intro j
    induction j with
    | zero => intro _; exact ⟨_, rfl⟩
    | succ j ih =>
      intro hj
      obtain ⟨st, hst⟩ := ih (by omega)
      obtain ⟨row, hr, hne⟩ := hfirst j (by omega)
      rw [List.range_succ, List.foldlM_append, hst, ok_bind]
      simp only [List.foldlM_cons, List.foldlM_nil]
      unfold outsideStep
      rw [getR_ok.2 hr, ok_bind]
      cases row with
      | nil => exact absurd rfl hne
      | cons a l =>
        simp only [frontNeg, ok_bind]
        split <;> exact ⟨_, rfl⟩
  obtain ⟨st, hst⟩ := key p (Nat.le_refl _)
  have hrange : List.range cells.length = List.range p ++ (p :: List.range' (p + 1) k) := by
    rw [hk, List.range_eq_range', List.range_eq_range', show p + 1 + k = p + (k + 1) by omega,
      ← List.range'_append_1, Nat.zero_add, List.range'_succ]
  unfold getOutsides
  rw [hrange, List.foldlM_append, hst, ok_bind, List.foldlM_cons]
  have : outsideStep cells st p = .error .ub := by
    unfold outsideStep
    rw [getR_ok.2 hp, ok_bind]
    rfl
  rw [this]
  rfl

/-! ### Bonds -/

/-- **C109** (part: without walls) Each bond between two cells is printed once, the smaller number first, and
nothing else is. -/
theorem C109_bonds_partial {cells : List (List Int)} (hc : CellsOk cells) (hn : cells.length ≤ szMod)
    (hw : ∀ p, ¬ AtWall cells p) :
    (printBonds cells).Nodup ∧
    ∀ (p : Nat) (q : Int), (p, q) ∈ printBonds cells ↔ ∃ q' : Nat, q = q' ∧ p < q' ∧ Touch cells p q' := by
  have hrow : ∀ (row : List Int) (p : Nat), cells[p]? = some row →
      fromLowerBoundBy (fun x => decide (toSize x < p)) row = row.filter (fun x => decide ((p : Int) ≤ x)) := by
    intro row p hp
    have hm : row ∈ cells := List.mem_of_getElem? hp
    have hpos : ∀ x ∈ row, ∃ m : Nat, x = m ∧ m < szMod := by
      intro x hx
      have h1 := hc.range _ hm _ hx
      have h0 : 0 ≤ x := by
        by_contra h
        exact hw p ⟨row, hp, x, hx, by omega⟩
      obtain ⟨m, rfl⟩ := Int.eq_ofNat_of_zero_le h0
      exact ⟨m, rfl, by omega⟩
    rw [fromLowerBoundBy_eq]
    · refine List.filter_congr ?_
      intro x hx
      obtain ⟨m, rfl, hm'⟩ := hpos x hx
      rw [toSize_ofNat hm']
      by_cases h : m < p
      · simp [h]
      · simp [h]; omega
    · intro i j x y hij hx hy h
      have hlt := pairwise_getElem? (hc.sorted _ hm) hij hx hy
      obtain ⟨m, rfl, hm1⟩ := hpos x (List.mem_of_getElem? hx)
      obtain ⟨m', rfl, hm2⟩ := hpos y (List.mem_of_getElem? hy)
      rw [toSize_ofNat hm2] at h
      rw [toSize_ofNat hm1]
      simp only [decide_eq_true_eq] at h ⊢
      omega
  constructor
  · unfold printBonds
    rw [List.nodup_flatMap]
    constructor
    · rintro ⟨row, p⟩ hrp
      rw [List.mem_zipIdx_iff_getElem?] at hrp
      simp only at hrp ⊢
      rw [hrow row p hrp]
      refine List.Nodup.map (fun a b h => (Prod.mk.inj h).2) ?_
      exact ((hc.sorted row (List.mem_of_getElem? hrp)).imp (fun h => Int.ne_of_lt h)).filter _
    · rw [List.pairwise_iff_getElem]
      intro i j hi hj hij
      simp only [Function.onFun, List.getElem_zipIdx, List.disjoint_left, List.mem_map]
      rintro a ⟨x, -, rfl⟩ ⟨y, -, he⟩
      have := (Prod.mk.inj he).1
      omega
  · intro p q
    unfold printBonds
    rw [List.mem_flatMap]
    constructor
    · rintro ⟨⟨row, p'⟩, hrp, hq⟩
      rw [List.mem_zipIdx_iff_getElem?] at hrp
      simp only at hrp hq
      rw [hrow row p' hrp, List.mem_map] at hq
      obtain ⟨x, hx, he⟩ := hq
      obtain ⟨rfl, rfl⟩ := Prod.mk.inj he
      rw [List.mem_filter] at hx
      have hx0 : (p' : Int) ≤ x := by simpa using hx.2
      obtain ⟨m, rfl⟩ := Int.eq_ofNat_of_zero_le (by omega : 0 ≤ x)
      refine ⟨m, rfl, ?_, row, hrp, hx.1⟩
      have : m ≠ p' := by
        rintro rfl
        exact hc.irrefl m ⟨row, hrp, hx.1⟩
      omega
    · rintro ⟨q', rfl, hlt, row, hr, hq⟩
      refine ⟨(row, p), List.mem_zipIdx_iff_getElem?.2 hr, ?_⟩
      simp only
      rw [hrow row p hr, List.mem_map]
      refine ⟨_, List.mem_filter.2 ⟨hq, ?_⟩, rfl⟩
      simp; omega

/-- Three cells in a periodic box. -/
def threeCells : List (List Int) := [[1, 2], [0, 2], [0, 1]]

example : printBonds threeCells = [(0, 1), (0, 2), (1, 2)] := by decide +kernel

/-- **C109** is false with walls: the comparison with a `size_t` makes the walls larger than any particle, and
the bonds of a cell with no smaller neighbour are printed with its walls. -/
theorem C109_walls_counterexample {cells : List (List Int)} {p : Nat} {row : List Int}
    (hn : cells.length + row.length ≤ szMod - 6) (hp : cells[p]? = some row)
    (hx : ∀ x ∈ row, (-6 ≤ x ∧ x < 0) ∨ ((p : Int) ≤ x ∧ x < cells.length)) :
    ∀ x ∈ row, (p, x) ∈ printBonds cells := by
  have hfalse : ∀ x ∈ row, decide (toSize x < p) = false := by
    intro x hm
    have hlen := (List.getElem?_eq_some_iff.1 hp).1
    rw [decide_eq_false_iff_not]
    unfold toSize
    rcases hx x hm with h | h
    · have : x % (szMod : Int) = x + szMod := by
        rw [Int.emod_def]
        have : x / (szMod : Int) = -1 := by
          simp only [szMod] at *
          omega
        rw [this]; omega
      rw [this]
      omega
    · have : x % (szMod : Int) = x := Int.emod_eq_of_lt (by omega) (by omega)
      rw [this]; omega
  have hall : fromLowerBoundBy (fun x => decide (toSize x < p)) row = row := by
    rw [fromLowerBoundBy_eq]
    · exact List.filter_eq_self.2 (fun x hm => by rw [hfalse x hm]; rfl)
    · intro i j x y _ hx' hy' h
      rw [hfalse y (List.mem_of_getElem? hy')] at h
      simp at h
  intro x hm
  unfold printBonds
  rw [List.mem_flatMap]
  refine ⟨(row, p), List.mem_zipIdx_iff_getElem?.2 hp, ?_⟩
  simp only
  rw [hall, List.mem_map]
  exact ⟨x, hm, rfl⟩

/-- Four particles, the first and the last in corners. -/
def fourCells : List (List Int) := [[-5, -3, -1, 1, 2], [-3, 0, 2, 3], [-5, 0, 1, 3], [-6, -4, -2, 1, 2]]

/-- The bonds of these cells: the particles 0 and 3 are bonded to walls and the bonds of the particle 3 are
printed a second time. -/
example : printBonds fourCells = [(0, -5), (0, -3), (0, -1), (0, 1), (0, 2), (1, 2), (1, 3), (2, 3),
    (3, -6), (3, -4), (3, -2), (3, 1), (3, 2)] := by decide +kernel

theorem fourCells_ok : CellsOk fourCells := by
  have hb : ∀ p q, Touch fourCells p q → p < 4 ∧ q < 4 := by
    rintro p q ⟨row, hr, hq⟩
    have hm := List.mem_of_getElem? hr
    have h1 : p < 4 := (List.getElem?_eq_some_iff.1 hr).1
    have : ∀ row ∈ fourCells, ∀ x ∈ row, x < 4 := by decide +kernel
    have := this row hm _ hq
    omega
  have hd : ∀ p q, Touch fourCells p q ↔ (q : Int) ∈ fourCells.getD p [] := by
    intro p q
    unfold Touch
    rw [List.getD_eq_getElem?_getD]
    cases fourCells[p]? <;> simp
  refine ⟨by decide +kernel, by decide +kernel, ?_, ?_⟩
  · intro p q h
    obtain ⟨h1, h2⟩ := hb p q h
    rw [hd] at h ⊢
    have : ∀ p : Nat, p < 4 → ∀ q : Nat, q < 4 → ((q : Int) ∈ fourCells.getD p []) → (p : Int) ∈ fourCells.getD q [] := by
      decide +kernel
    exact this p h1 q h2 h
  · intro p h
    obtain ⟨h1, -⟩ := hb p p h
    rw [hd] at h
    have : ∀ p : Nat, p < 4 → ¬ ((p : Int) ∈ fourCells.getD p []) := by decide +kernel
    exact this p h1 h

example : CellsOk fourCells ∧ (∀ row ∈ fourCells, row ≠ []) ∧ fourCells.length ≤ szMod :=
  ⟨fourCells_ok, by decide +kernel, by simp [fourCells, szMod]⟩

end Mains
end Colloids
