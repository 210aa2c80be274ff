import Verif.Bonds.Model
import Verif.Clusters.Lemmas
import Verif.Traj.IOLemmas
import Verif.CommonLemmas
import Mathlib.Data.List.Basic

/-! Lemmas on bonds. -/

namespace Colloids
open Clusters

theorem Bond.lt_iff {a b : Bond} :
    a.lt b = true ↔ a.first < b.first ∨ (a.first = b.first ∧ a.second < b.second) := by
  simp [Bond.lt]

theorem Bond.lt_irrefl (a : Bond) : ¬ a.lt a = true := by rw [Bond.lt_iff]; omega

theorem Bond.lt_trans {a b c : Bond} (h : a.lt b = true) (h' : b.lt c = true) : a.lt c = true := by
  rw [Bond.lt_iff] at *; omega

theorem Bond.ext' {a b : Bond} (h1 : a.first = b.first) (h2 : a.second = b.second) : a = b := by
  cases a; cases b; simp_all

theorem Bond.lt_total (a b : Bond) : a.lt b = true ∨ a = b ∨ b.lt a = true := by
  rw [Bond.lt_iff, Bond.lt_iff]
  by_cases h : a.first = b.first
  · by_cases h' : a.second = b.second
    · exact .inr (.inl (Bond.ext' h h'))
    · omega
  · omega

/-- Two lists sorted by the same strict order with the same elements are equal. -/
theorem sortedBy_ext {r : α → α → Prop} (hirr : ∀ a, ¬ r a a) (htr : ∀ a b c, r a b → r b c → r a c) :
    ∀ {l l' : List α}, l.Pairwise r → l'.Pairwise r → (∀ x, x ∈ l ↔ x ∈ l') → l = l' := by
  intro l
  induction l with
  | nil =>
    intro l' _ _ h
    cases l' with
    | nil => rfl
    | cons a l' => exact absurd ((h a).2 (by simp)) (by simp)
  | cons a l ih =>
    intro l' h1 h2 h
    cases l' with
    | nil => exact absurd ((h a).1 (by simp)) (by simp)
    | cons b l' =>
      rw [List.pairwise_cons] at h1 h2
      have hab : a = b := by
        have ha := (h a).1 (by simp)
        have hb := (h b).2 (by simp)
        rw [List.mem_cons] at ha hb
        rcases ha with ha | ha
        · exact ha
        · rcases hb with hb | hb
          · exact hb.symm
          · exact absurd (htr _ _ _ (h1.1 b hb) (h2.1 a ha)) (hirr a)
      subst hab
      congr 1
      refine ih h1.2 h2.2 ?_
      intro x
      have hx := h x
      simp only [List.mem_cons] at hx
      constructor
      · intro hm
        rcases hx.1 (.inr hm) with e | e
        · subst e; exact absurd (h1.1 _ hm) (hirr _)
        · exact e
      · intro hm
        rcases hx.2 (.inr hm) with e | e
        · subst e; exact absurd (h2.1 _ hm) (hirr _)
        · exact e

/-- A bond set: sorted by `operator<`, hence without duplicates. -/
def IsBondSet (l : List Bond) : Prop := l.Pairwise (fun a b => a.lt b = true)

theorem mem_bondInsert {b x : Bond} : ∀ {l : List Bond}, x ∈ bondInsert b l ↔ x = b ∨ x ∈ l := by
  intro l
  induction l with
  | nil => simp [bondInsert]
  | cons c cs ih =>
    unfold bondInsert
    split
    · simp
    · split
      · simp [ih]; tauto
      · rename_i h1 h2
        have : b = c := by
          rcases Bond.lt_total b c with h | h | h
          · exact absurd h h1
          · exact h
          · exact absurd h h2
        subst this; simp

theorem bondInsert_sorted {b : Bond} : ∀ {l : List Bond}, IsBondSet l → IsBondSet (bondInsert b l) := by
  intro l
  induction l with
  | nil => intro _; simp [bondInsert, IsBondSet]
  | cons c cs ih =>
    intro h
    have h' := List.pairwise_cons.1 h
    unfold bondInsert
    split
    · rename_i h1
      refine List.pairwise_cons.2 ⟨?_, h⟩
      intro x hx
      rcases List.mem_cons.1 hx with rfl | hx
      · exact h1
      · exact Bond.lt_trans h1 (h'.1 x hx)
    · split
      · rename_i h1 h2
        refine List.pairwise_cons.2 ⟨?_, ih h'.2⟩
        intro x hx
        rcases mem_bondInsert.1 hx with rfl | hx
        · exact h2
        · exact h'.1 x hx
      · exact h

theorem bondInsert_append {b : Bond} : ∀ {l : List Bond}, (∀ c ∈ l, c.lt b = true) →
    bondInsert b l = l ++ [b] := by
  intro l
  induction l with
  | nil => intro _; rfl
  | cons c cs ih =>
    intro h
    have h1 := h c (by simp)
    have h2 : ¬ b.lt c = true := fun h' => Bond.lt_irrefl _ (Bond.lt_trans h1 h')
    unfold bondInsert
    rw [if_neg h2, if_pos h1, ih (fun x hx => h x (by simp [hx])), List.cons_append]

/-! ### lower_bound -/

theorem lowerBoundAux_spec (l : List Nat) (v : Nat) (hs : l.Pairwise (· < ·)) :
    ∀ (fuel first len : Nat), len ≤ fuel → first + len ≤ l.length →
      (∀ (i : Nat) (x : Nat), l[i]? = some x → i < first → x < v) →
      (∀ (i : Nat) (x : Nat), l[i]? = some x → first + len ≤ i → v ≤ x) →
      ∀ (i : Nat) (x : Nat), l[i]? = some x →
        (i < lowerBoundAux l v fuel first len ↔ x < v) := by
  intro fuel
  induction fuel with
  | zero =>
    intro first len h1 h2 h3 h4 i x hx
    have : len = 0 := by omega
    subst this
    simp only [lowerBoundAux]
    constructor
    · exact h3 i x hx
    · intro hv
      by_contra hc
      have := h4 i x hx (by omega)
      omega
  | succ fuel ih =>
    intro first len h1 h2 h3 h4 i x hx
    unfold lowerBoundAux
    split
    · rename_i h0
      subst h0
      constructor
      · exact h3 i x hx
      · intro hv
        by_contra hc
        have := h4 i x hx (by omega)
        omega
    · rename_i h0
      have hlt : first + len / 2 < l.length := by omega
      have hg : l.getD (first + len / 2) 0 = l[first + len / 2] := by
        simp [List.getD, List.getElem?_eq_getElem hlt]
      have hpw : ∀ (i j : Nat) (x y : Nat), l[i]? = some x → l[j]? = some y → i < j → x < y := by
        intro i j x y hi hj hij
        obtain ⟨hi', rfl⟩ := List.getElem?_eq_some_iff.1 hi
        obtain ⟨hj', rfl⟩ := List.getElem?_eq_some_iff.1 hj
        exact List.pairwise_iff_getElem.1 hs i j hi' hj' hij
      have hm : l[first + len / 2]? = some l[first + len / 2] := List.getElem?_eq_getElem hlt
      dsimp only
      rw [hg]
      split
      · rename_i hc
        refine ih _ _ (by omega) (by omega) ?_ ?_ i x hx
        · intro j y hy hj
          rcases Nat.lt_or_ge j (first + len / 2) with h | h
          · have := hpw _ _ _ _ hy hm h; omega
          · have : j = first + len / 2 := by omega
            subst this; rw [hm] at hy; cases hy; exact hc
        · intro j y hy hj; exact h4 j y hy (by omega)
      · rename_i hc
        refine ih _ _ (by omega) (by omega) h3 ?_ i x hx
        intro j y hy hj
        rcases Nat.lt_or_ge (first + len / 2) j with h | h
        · have := hpw _ _ _ _ hm hy h; omega
        · have : j = first + len / 2 := by omega
          subst this; rw [hm] at hy; cases hy; omega

theorem mem_fromLowerBound {l : List Nat} (hs : l.Pairwise (· < ·)) {v x : Nat} :
    x ∈ fromLowerBound l v ↔ x ∈ l ∧ v ≤ x := by
  have key := lowerBoundAux_spec l v hs l.length 0 l.length (Nat.le_refl _) (by omega)
    (by intro i x _ h; omega)
    (by
      intro i x h h'
      obtain ⟨h'', -⟩ := List.getElem?_eq_some_iff.1 h
      omega)
  unfold fromLowerBound
  rw [List.mem_iff_getElem?, List.mem_iff_getElem?]
  constructor
  · rintro ⟨i, hi⟩
    rw [List.getElem?_drop] at hi
    refine ⟨⟨_, hi⟩, ?_⟩
    have := key _ _ hi
    omega
  · rintro ⟨⟨i, hi⟩, hv⟩
    have := key _ _ hi
    refine ⟨i - lowerBoundAux l v l.length 0 l.length, ?_⟩
    rw [List.getElem?_drop]
    have e : lowerBoundAux l v l.length 0 l.length +
      (i - lowerBoundAux l v l.length 0 l.length) = i := by omega
    rw [e]; exact hi

/-! ### ngb2bonds -/

theorem foldl_bondInsert (p : Nat) : ∀ (row : List Nat) (acc : List Bond), IsBondSet acc →
    IsBondSet (row.foldl (fun bonds q => bondInsert (Bond.mk' p q) bonds) acc) ∧
    ∀ x, x ∈ row.foldl (fun bonds q => bondInsert (Bond.mk' p q) bonds) acc ↔
      x ∈ acc ∨ ∃ q ∈ row, x = Bond.mk' p q := by
  intro row
  induction row with
  | nil => intro acc h; simpa using h
  | cons q row ih =>
    intro acc h
    obtain ⟨h1, h2⟩ := ih (bondInsert (Bond.mk' p q) acc) (bondInsert_sorted h)
    refine ⟨h1, ?_⟩
    intro x
    rw [List.foldl_cons, h2, mem_bondInsert]
    simp only [List.mem_cons, exists_eq_or_imp]
    tauto

theorem foldl_ngb2bonds : ∀ (rows : List (List Nat × Nat)) (acc : List Bond), IsBondSet acc →
    IsBondSet (rows.foldl (fun bonds rp => (fromLowerBound rp.1 (rp.2 + 1)).foldl
      (fun bonds q => bondInsert (Bond.mk' rp.2 q) bonds) bonds) acc) ∧
    ∀ x, x ∈ rows.foldl (fun bonds rp => (fromLowerBound rp.1 (rp.2 + 1)).foldl
      (fun bonds q => bondInsert (Bond.mk' rp.2 q) bonds) bonds) acc ↔
      x ∈ acc ∨ ∃ rp ∈ rows, ∃ q ∈ fromLowerBound rp.1 (rp.2 + 1), x = Bond.mk' rp.2 q := by
  intro rows
  induction rows with
  | nil => intro acc h; simpa using h
  | cons rp rows ih =>
    intro acc h
    obtain ⟨h1, h2⟩ := foldl_bondInsert rp.2 (fromLowerBound rp.1 (rp.2 + 1)) acc h
    obtain ⟨h3, h4⟩ := ih _ h1
    refine ⟨h3, ?_⟩
    intro x
    rw [List.foldl_cons, h4, h2, or_assoc]
    simp only [List.mem_cons, exists_eq_or_imp]

theorem ngb2bonds_sorted (ngbs : NgbList) : IsBondSet (ngb2bonds ngbs) :=
  (foldl_ngb2bonds _ [] List.Pairwise.nil).1

theorem mem_ngb2bonds {ngbs : NgbList} (hs : ∀ row ∈ ngbs, row.Pairwise (· < ·)) {b : Bond} :
    b ∈ ngb2bonds ngbs ↔ b.low < b.high ∧ Ngb ngbs b.low b.high := by
  unfold ngb2bonds
  rw [(foldl_ngb2bonds _ [] List.Pairwise.nil).2]
  simp only [List.not_mem_nil, false_or]
  constructor
  · rintro ⟨⟨row, p⟩, hrp, q, hq, rfl⟩
    rw [List.mem_zipIdx_iff_getElem?] at hrp
    dsimp only at hrp hq ⊢
    rw [mem_fromLowerBound (hs row (List.mem_of_getElem? hrp))] at hq
    have : p < q := by omega
    simp only [Bond.mk', if_pos this, Bond.low, Bond.high]
    exact ⟨this, row, hrp, hq.1⟩
  · rintro ⟨hlt, row, hrow, hq⟩
    refine ⟨(row, b.low), ?_, b.high, ?_, ?_⟩
    · rw [List.mem_zipIdx_iff_getElem?]; exact hrow
    · rw [mem_fromLowerBound (hs row (List.mem_of_getElem? hrow))]
      exact ⟨hq, hlt⟩
    · simp only [Bond.mk', if_pos hlt]; rfl

/-! ### makeNgbList -/

/-- What a list of bonds appends to the row of particle `p`. -/
def bondRow (p : Nat) (bs : List Bond) : List Nat :=
  bs.flatMap fun b => (if b.low = p then [b.high] else []) ++ (if b.high = p then [b.low] else [])

theorem addBond_ok {ngbs : NgbList} {b : Bond} (h1 : b.low < ngbs.length) (h2 : b.high < ngbs.length) :
    ∃ ngbs', addBond ngbs b = .ok ngbs' ∧ ngbs'.length = ngbs.length ∧
      ∀ (p : Nat) (row : List Nat), ngbs[p]? = some row → ngbs'[p]? = some (row ++ bondRow p [b]) := by
  refine ⟨(ngbs.modify b.low (fun row => row ++ [b.high])).modify b.high (fun row => row ++ [b.low]),
    ?_, by simp, ?_⟩
  · unfold addBond modifyR
    rw [if_pos h1, ok_bind, if_pos (by simpa using h2)]
  · intro p row hrow
    simp only [List.getElem?_modify, bondRow, List.flatMap_cons, List.flatMap_nil, List.append_nil]
    rw [hrow]
    by_cases e1 : b.low = p <;> by_cases e2 : b.high = p <;> simp [e1, e2]

theorem foldlM_addBond : ∀ (bs : List Bond) (ngbs : NgbList),
    (∀ b ∈ bs, b.low < ngbs.length ∧ b.high < ngbs.length) →
    ∃ ngbs', bs.foldlM addBond ngbs = .ok ngbs' ∧ ngbs'.length = ngbs.length ∧
      ∀ (p : Nat) (row : List Nat), ngbs[p]? = some row → ngbs'[p]? = some (row ++ bondRow p bs) := by
  intro bs
  induction bs with
  | nil => intro ngbs _; exact ⟨ngbs, by simp, rfl, fun p row h => by simpa [bondRow] using h⟩
  | cons b bs ih =>
    intro ngbs h
    obtain ⟨n1, h1, h2, h3⟩ := addBond_ok (h b (by simp)).1 (h b (by simp)).2
    obtain ⟨n2, h4, h5, h6⟩ := ih n1 (fun c hc => by rw [h2]; exact h c (by simp [hc]))
    refine ⟨n2, ?_, by rw [h5, h2], ?_⟩
    · rw [List.foldlM_cons, h1, ok_bind, h4]
    · intro p row hr
      rw [h6 p _ (h3 p row hr), List.append_assoc]
      simp [bondRow]

theorem makeNgbList_ok {n : Nat} {bs : List Bond} (h : ∀ b ∈ bs, b.low < n ∧ b.high < n) :
    ∃ ngbs, makeNgbListFromBonds n bs = .ok ngbs ∧ ngbs.length = n ∧
      ∀ (p : Nat), p < n → ngbs[p]? = some (bondRow p bs) := by
  obtain ⟨ngbs, h1, h2, h3⟩ := foldlM_addBond bs (List.replicate n []) (by simpa using h)
  refine ⟨ngbs, h1, by simpa using h2, ?_⟩
  intro p hp
  have := h3 p [] (by simp [List.getElem?_replicate, hp])
  simpa using this

theorem mem_bondRow {p q : Nat} {bs : List Bond} :
    q ∈ bondRow p bs ↔ ∃ b ∈ bs, (b.low = p ∧ b.high = q) ∨ (b.high = p ∧ b.low = q) := by
  unfold bondRow
  rw [List.mem_flatMap]
  constructor
  · rintro ⟨b, hb, hq⟩
    refine ⟨b, hb, ?_⟩
    rw [List.mem_append] at hq
    rcases hq with hq | hq <;> split at hq <;> simp_all
  · rintro ⟨b, hb, hq⟩
    refine ⟨b, hb, ?_⟩
    rw [List.mem_append]
    rcases hq with ⟨h1, h2⟩ | ⟨h1, h2⟩
    · left; simp [h1, h2]
    · right; simp [h1, h2]

theorem bondRow_sorted {p : Nat} {bs : List Bond} (hs : IsBondSet bs)
    (hne : ∀ b ∈ bs, b.low < b.high) : (bondRow p bs).Pairwise (· < ·) := by
  unfold bondRow
  rw [List.pairwise_flatMap]
  constructor
  · intro b hb
    have := hne b hb
    by_cases h1 : b.low = p <;> by_cases h2 : b.high = p
    · omega
    · simp [h1, h2]
    · simp [h1, h2]
    · simp [h1, h2]
  · refine hs.imp_of_mem ?_
    intro a b ha hb hab x hx y hy
    have h1 := hne a ha
    have h2 := hne b hb
    rw [Bond.lt_iff] at hab
    rw [List.mem_append] at hx hy
    rcases hx with hx | hx <;> rcases hy with hy | hy <;> split at hx <;> split at hy <;>
      simp at hx hy <;> simp only [Bond.low, Bond.high] at * <;> omega

/-! ### Files -/

theorem showNat_noDigitHead (c : Char) (hc : c.isDigit = false) (r : List Char) :
    ∀ d ∈ (c :: r).head?, d.isDigit = false := by simp [hc]

theorem read_write (b : Bond) (hb : b.low ≤ b.high) (h1 : b.high < szMod) (ws : List Char)
    (hws : ∀ c ∈ ws, isSpace c = true) (r : List Char) (hr : ∀ c ∈ r.head?, c.isDigit = false) :
    Bond.read { rest := ws ++ (b.write ++ r) } = ({ rest := r, eof := r.isEmpty, fail := false }, b) := by
  unfold Bond.read Bond.write
  have e1 := readNat_show ws hws b.low (by omega) ([' '] ++ (showNat b.high ++ r)) (by simp) 0
  have e2 := readNat_show [' '] (by simp [isSpace]) b.high h1 r hr 0
  have e3 : ws ++ (showNat b.low ++ [' '] ++ showNat b.high ++ r) =
    ws ++ (showNat b.low ++ ([' '] ++ (showNat b.high ++ r))) := by simp
  have e4 : ([' '] ++ (showNat b.high ++ r)).isEmpty = false := by simp
  rw [e3, e1, e4]
  dsimp only
  rw [e2]
  dsimp only
  congr 1
  unfold Bond.mk'
  split
  · rfl
  · rename_i h
    simp only [Bond.low, Bond.high] at h hb
    exact Bond.ext' (by simp only [Bond.high]; omega) (by simp only [Bond.low]; omega)

theorem write_length_pos (b : Bond) : 0 < b.write.length := by simp [Bond.write]; omega

/-- Bonds each preceded by a newline, then `tail`. -/
def bondLines (bs : List Bond) (tail : List Char) : List Char :=
  (bs.map fun b => '\n' :: b.write).flatten ++ tail

theorem bondLines_head (bs : List Bond) (tail : List Char) (ht : ∀ c ∈ tail, isSpace c = true) :
    ∀ c ∈ (bondLines bs tail).head?, c.isDigit = false := by
  cases bs with
  | nil =>
    intro c hc
    have hc' : c ∈ tail := by
      have : bondLines [] tail = tail := by simp [bondLines]
      rw [this] at hc
      exact List.mem_of_mem_head? hc
    have := ht c hc'
    cases h : c.isDigit with
    | false => rfl
    | true => rw [digit_not_space h] at this; cases this
  | cons b bs => simp [bondLines]

theorem dropWhile_space {ws : List Char} (hws : ∀ c ∈ ws, isSpace c = true) :
    ws.dropWhile isSpace = [] := by
  induction ws with
  | nil => rfl
  | cons c ws ih =>
    rw [List.dropWhile_cons_of_pos (hws c (by simp))]
    exact ih (fun d hd => hws d (by simp [hd]))

theorem loadLoop_lines (tail : List Char) (ht : ∀ c ∈ tail, isSpace c = true) :
    ∀ (bs : List Bond) (fuel : Nat) (acc : List Bond),
    bs.length < fuel → IsBondSet (acc ++ bs) →
    (∀ b ∈ bs, b.low ≤ b.high ∧ b.high < szMod) →
    loadBondsLoop fuel { rest := bondLines bs tail, eof := (bondLines bs tail).isEmpty } acc =
      .ok (acc ++ bs) := by
  intro bs
  induction bs with
  | nil =>
    intro fuel acc hf _ _
    obtain ⟨f, rfl⟩ : ∃ f, fuel = f + 1 := ⟨fuel - 1, by simp at hf; omega⟩
    have e0 : bondLines [] tail = tail := by simp [bondLines]
    have e : (({ rest := tail, eof := tail.isEmpty } : IStream).readNat 0).1.fail = true := by
      unfold IStream.readNat
      simp only [IStream.good, Bool.not_false, Bool.and_true, Bool.not_not, dropWhile_space ht]
      split <;> simp
    have e' : ∀ s : IStream, s.fail = true → (s.readNat 0).1.fail = true := by
      intro s hs; unfold IStream.readNat; simp [IStream.good, hs]
    rw [e0]
    unfold loadBondsLoop Bond.read
    dsimp only
    rw [if_pos (e' _ e)]
    simp
  | cons b bs ih =>
    intro fuel acc hf hs hb
    obtain ⟨f, rfl⟩ : ∃ f, fuel = f + 1 := ⟨fuel - 1, by simp at hf; omega⟩
    have e : bondLines (b :: bs) tail = ['\n'] ++ (b.write ++ bondLines bs tail) := by
      simp [bondLines]
    have e2 : (bondLines (b :: bs) tail).isEmpty = false := by rw [e]; rfl
    unfold loadBondsLoop
    rw [e2, e, read_write b (hb b (by simp)).1 (hb b (by simp)).2 ['\n'] (by simp [isSpace]) _
      (bondLines_head bs tail ht)]
    dsimp only
    simp only [Bool.false_eq_true, if_false]
    have hlt : ∀ c ∈ acc, c.lt b = true := by
      intro c hc
      unfold IsBondSet at hs
      rw [List.pairwise_append] at hs
      exact hs.2.2 c hc b (by simp)
    rw [bondInsert_append hlt, ih f (acc ++ [b]) (by simp at hf; omega)
      (by simpa using hs) (fun c hc => hb c (by simp [hc]))]
    simp

theorem loadBonds_lines (tail : List Char) (ht : ∀ c ∈ tail, isSpace c = true) (b : Bond)
    (bs : List Bond) (hs : IsBondSet (b :: bs))
    (hb : ∀ c ∈ b :: bs, c.low ≤ c.high ∧ c.high < szMod) :
    loadBonds (some (b.write ++ bondLines bs tail)) = .ok (b :: bs) := by
  unfold loadBonds
  dsimp only
  unfold loadBondsLoop
  have e := read_write b (hb b (by simp)).1 (hb b (by simp)).2 [] (by simp) _
      (bondLines_head bs tail ht)
  rw [List.nil_append] at e
  rw [e]
  dsimp only
  simp only [Bool.false_eq_true, if_false]
  have hl : bs.length ≤ (bondLines bs tail).length := by
    have : ∀ l : List Bond, l.length ≤ ((l.map fun b => '\n' :: b.write).flatten).length := by
      intro l
      induction l with
      | nil => simp
      | cons x xs ih => simp at ih ⊢; omega
    have := this bs
    unfold bondLines
    rw [List.length_append]
    omega
  have := write_length_pos b
  rw [show bondInsert b [] = [b] from rfl, loadLoop_lines tail ht bs _ [b] (by simp; omega) hs
    (fun c hc => hb c (by simp [hc]))]
  rfl

theorem writeBonds_cons (b : Bond) (bs : List Bond) :
    writeBonds (b :: bs) = b.write ++ bondLines bs ['\n'] := by
  induction bs generalizing b with
  | nil => simp [writeBonds, bondLines]
  | cons c cs ih =>
    have h := ih c
    have e1 : writeBonds (b :: c :: cs) = b.write ++ '\n' :: writeBonds (c :: cs) := by
      simp [writeBonds]
    have e2 : bondLines (c :: cs) ['\n'] = '\n' :: (c.write ++ bondLines cs ['\n']) := by
      simp [bondLines]
    rw [e1, h, e2]

end Colloids
