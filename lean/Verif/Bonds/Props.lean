import Verif.Bonds.Lemmas

/-! # Properties C10 and C11 -/

namespace Colloids
open Clusters

/-- C10. A bond is an unordered pair: the order of the arguments does not matter, two pairs give the
same bond iff they are equal up to swapping, and `low() ≤ high()` are the two ends. -/
theorem C10_unordered (x y x' y' : Nat) :
    Bond.mk' x y = Bond.mk' y x ∧
    (Bond.mk' x y).low = min x y ∧ (Bond.mk' x y).high = max x y ∧
    (Bond.mk' x y = Bond.mk' x' y' ↔ (x = x' ∧ y = y') ∨ (x = y' ∧ y = x')) := by
  simp only [Bond.mk', Bond.low, Bond.high]
  refine ⟨?_, ?_, ?_, ?_⟩
  · split <;> split <;> simp <;> omega
  · split <;> simp <;> omega
  · split <;> simp <;> omega
  · split <;> split <;> simp <;> omega

/-- C10. `operator<` is a strict total order, compatible with equality of bonds. -/
theorem C10_order (a b c : Bond) :
    a.lt a = false ∧ (a.lt b = true → b.lt c = true → a.lt c = true) ∧
    (a.lt b = true → b.lt a = false) ∧ (a.lt b = false → b.lt a = false → a = b) := by
  refine ⟨by simpa using Bond.lt_irrefl a, Bond.lt_trans, ?_, ?_⟩
  · intro h
    cases h' : b.lt a with
    | false => rfl
    | true => exact absurd (Bond.lt_trans h h') (Bond.lt_irrefl a)
  · intro h h'
    rcases Bond.lt_total a b with h1 | h1 | h1
    · rw [h] at h1; cases h1
    · exact h1
    · rw [h'] at h1; cases h1

/-- C10. A bond set filled by any sequence of insertions holds each inserted pair exactly once and
nothing else. -/
theorem C10_set (pairs : List (Nat × Nat)) (x y : Nat) :
    (pairs.foldl (fun s p => bondInsert (Bond.mk' p.1 p.2) s) []).count (Bond.mk' x y) =
      if (x, y) ∈ pairs ∨ (y, x) ∈ pairs then 1 else 0 := by
  have key : ∀ (ps : List (Nat × Nat)) (acc : List Bond), IsBondSet acc →
      IsBondSet (ps.foldl (fun s p => bondInsert (Bond.mk' p.1 p.2) s) acc) ∧
      ∀ b, b ∈ ps.foldl (fun s p => bondInsert (Bond.mk' p.1 p.2) s) acc ↔
        b ∈ acc ∨ ∃ p ∈ ps, b = Bond.mk' p.1 p.2 := by
    intro ps
    induction ps with
    | nil => intro acc h; simpa using h
    | cons p ps ih =>
      intro acc h
      obtain ⟨h1, h2⟩ := ih _ (bondInsert_sorted (b := Bond.mk' p.1 p.2) h)
      refine ⟨h1, ?_⟩
      intro b
      rw [List.foldl_cons, h2, mem_bondInsert]
      simp only [List.mem_cons, exists_eq_or_imp]
      tauto
  obtain ⟨h1, h2⟩ := key pairs [] List.Pairwise.nil
  have hnd : (pairs.foldl (fun s p => bondInsert (Bond.mk' p.1 p.2) s) []).Nodup :=
    h1.imp (fun {a b} h e => by subst e; exact Bond.lt_irrefl _ h)
  have hm : (Bond.mk' x y ∈ pairs.foldl (fun s p => bondInsert (Bond.mk' p.1 p.2) s) []) ↔
      ((x, y) ∈ pairs ∨ (y, x) ∈ pairs) := by
    rw [h2]
    constructor
    · rintro (h | ⟨⟨a, b⟩, hp, e⟩)
      · cases h
      · rcases (C10_unordered x y a b).2.2.2.1 e with ⟨rfl, rfl⟩ | ⟨rfl, rfl⟩
        · exact .inl hp
        · exact .inr hp
    · rintro (h | h)
      · exact .inr ⟨_, h, rfl⟩
      · exact .inr ⟨_, h, (C10_unordered x y 0 0).1⟩
  split
  · rename_i h
    exact List.count_eq_one_of_mem hnd (hm.2 h)
  · rename_i h
    exact List.count_eq_zero_of_not_mem (fun h' => h (hm.1 h'))

/-- C10. Printing a bond and reading it back, whatever white space comes before and whatever non-digit
text comes after, gives the bond back and leaves the text after it. -/
theorem C10_roundtrip (x y : Nat) (hx : x < szMod) (hy : y < szMod) (ws r : List Char)
    (hws : ∀ c ∈ ws, isSpace c = true) (hr : ∀ c ∈ r.head?, c.isDigit = false) :
    Bond.read { rest := ws ++ ((Bond.mk' x y).write ++ r) } =
      ({ rest := r, eof := r.isEmpty, fail := false }, Bond.mk' x y) := by
  obtain ⟨-, h1, h2, -⟩ := C10_unordered x y 0 0
  exact read_write _ (by omega) (by omega) ws hws r hr

/-- C10. A whole bond set written to a file is read back identical by `loadBonds`. -/
theorem C10_file_roundtrip (bonds : List Bond) (hs : IsBondSet bonds)
    (hb : ∀ b ∈ bonds, b.low ≤ b.high ∧ b.high < szMod) :
    loadBonds (some (writeBonds bonds)) = .ok bonds := by
  cases bonds with
  | nil => decide
  | cons b bs =>
    rw [writeBonds_cons]
    exact loadBonds_lines ['\n'] (by simp [isSpace]) b bs hs hb

/-- C10. The final newline may be missing or followed by any white space. -/
theorem C10_file_ending (bonds : List Bond) (last : Bond) (tail : List Char)
    (ht : ∀ c ∈ tail, isSpace c = true) (hs : IsBondSet (bonds ++ [last]))
    (hb : ∀ b ∈ bonds ++ [last], b.low ≤ b.high ∧ b.high < szMod) :
    loadBonds (some (writeBonds bonds ++ last.write ++ tail)) = .ok (bonds ++ [last]) := by
  cases bonds with
  | nil =>
    have := loadBonds_lines tail ht last [] hs hb
    simpa [bondLines, writeBonds] using this
  | cons b bs =>
    have := loadBonds_lines tail ht b (bs ++ [last]) hs hb
    have e : b.write ++ bondLines (bs ++ [last]) tail =
        writeBonds (b :: bs) ++ last.write ++ tail := by
      rw [writeBonds_cons]; simp [bondLines]
    rw [← e, this]; rfl

/-- C11. For a neighbour list with sorted rows, the bond set holds `{p, q}` exactly once when the
larger is listed as neighbour of the smaller, and no self bond. For a symmetric list: iff they are
neighbours. -/
theorem C11_bonds (ngbs : NgbList) (hsort : ∀ row ∈ ngbs, row.Pairwise (· < ·))
    (hsym : ∀ p q, Ngb ngbs p q → Ngb ngbs q p) (p q : Nat) :
    (ngb2bonds ngbs).count (Bond.mk' p q) = (open Classical in if p ≠ q ∧ Ngb ngbs p q then 1 else 0) := by
  have hnd : (ngb2bonds ngbs).Nodup :=
    (ngb2bonds_sorted ngbs).imp (fun {a b} h e => by subst e; exact Bond.lt_irrefl _ h)
  obtain ⟨-, h1, h2, -⟩ := C10_unordered p q 0 0
  have hm : Bond.mk' p q ∈ ngb2bonds ngbs ↔ p ≠ q ∧ Ngb ngbs p q := by
    rw [mem_ngb2bonds hsort, h1, h2]
    rcases Nat.lt_trichotomy p q with h | h | h
    · rw [Nat.min_eq_left (by omega), Nat.max_eq_right (by omega)]
      exact ⟨fun h' => ⟨by omega, h'.2⟩, fun h' => ⟨h, h'.2⟩⟩
    · subst h; simp
    · rw [Nat.min_eq_right (by omega), Nat.max_eq_left (by omega)]
      exact ⟨fun h' => ⟨by omega, hsym _ _ h'.2⟩, fun h' => ⟨h, hsym _ _ h'.2⟩⟩
  split
  · rename_i h; exact List.count_eq_one_of_mem hnd (hm.2 h)
  · rename_i h; exact List.count_eq_zero_of_not_mem (fun h' => h (hm.1 h'))

/-- C11. Neighbour list → bond set → neighbour list is the identity on symmetric, irreflexive
neighbour lists with sorted rows. -/
theorem C11_ngb_roundtrip (ngbs : NgbList) (hsort : ∀ row ∈ ngbs, row.Pairwise (· < ·))
    (hsym : ∀ p q, Ngb ngbs p q → Ngb ngbs q p) (hirr : ∀ p, ¬ Ngb ngbs p p) :
    makeNgbListFromBonds ngbs.length (ngb2bonds ngbs) = .ok ngbs := by
  have hlt : ∀ p q, Ngb ngbs p q → p < ngbs.length := by
    rintro p q ⟨row, h, -⟩
    exact (List.getElem?_eq_some_iff.1 h).1
  obtain ⟨n', h1, h2, h3⟩ := makeNgbList_ok (n := ngbs.length) (bs := ngb2bonds ngbs) (by
    intro b hb
    rw [mem_ngb2bonds hsort] at hb
    exact ⟨hlt _ _ hb.2, hlt _ _ (hsym _ _ hb.2)⟩)
  rw [h1]
  congr 1
  refine List.ext_getElem? ?_
  intro p
  by_cases hp : p < ngbs.length
  · rw [h3 p hp, List.getElem?_eq_getElem hp]
    congr 1
    refine sortedBy_ext (r := (· < ·)) (fun a => Nat.lt_irrefl a) (fun a b c => Nat.lt_trans)
      (bondRow_sorted (ngb2bonds_sorted ngbs) (fun b hb => ((mem_ngb2bonds hsort).1 hb).1))
      (hsort _ (List.getElem_mem hp)) ?_
    intro q
    have hN : q ∈ ngbs[p] ↔ Ngb ngbs p q := by
      constructor
      · intro h; exact ⟨_, List.getElem?_eq_getElem hp, h⟩
      · rintro ⟨row, hr, hq⟩
        rw [List.getElem?_eq_getElem hp] at hr
        cases hr; exact hq
    rw [mem_bondRow, hN]
    constructor
    · rintro ⟨b, hb, (⟨rfl, rfl⟩ | ⟨rfl, rfl⟩)⟩
      · exact ((mem_ngb2bonds hsort).1 hb).2
      · exact hsym _ _ ((mem_ngb2bonds hsort).1 hb).2
    · intro h
      rcases Nat.lt_trichotomy p q with hpq | hpq | hpq
      · exact ⟨⟨p, q⟩, (mem_ngb2bonds hsort).2 ⟨hpq, h⟩, .inl ⟨rfl, rfl⟩⟩
      · subst hpq; exact absurd h (hirr p)
      · exact ⟨⟨q, p⟩, (mem_ngb2bonds hsort).2 ⟨hpq, hsym _ _ h⟩, .inr ⟨rfl, rfl⟩⟩
  · rw [List.getElem?_eq_none (by omega), List.getElem?_eq_none (by omega)]

/-- C11. Bond set → neighbour list: for bonds between distinct particles in range, the neighbour list
is symmetric, irreflexive, sorted, lists exactly the bonded pairs, and converting it back gives the
same bond set. -/
theorem C11_bond_roundtrip (n : Nat) (bonds : List Bond) (hs : IsBondSet bonds)
    (hb : ∀ b ∈ bonds, b.low < b.high ∧ b.high < n) :
    ∃ ngbs, makeNgbListFromBonds n bonds = .ok ngbs ∧ ngbs.length = n ∧
      (∀ row ∈ ngbs, row.Pairwise (· < ·)) ∧
      (∀ p q, Ngb ngbs p q ↔ p ≠ q ∧ Bond.mk' p q ∈ bonds) ∧
      ngb2bonds ngbs = bonds := by
  obtain ⟨ngbs, h1, h2, h3⟩ := makeNgbList_ok (n := n) (bs := bonds)
    (fun b hb' => ⟨by have := hb b hb'; omega, (hb b hb').2⟩)
  have hsort : ∀ row ∈ ngbs, row.Pairwise (· < ·) := by
    intro row hr
    obtain ⟨p, hp⟩ := List.mem_iff_getElem?.1 hr
    have hp' := (List.getElem?_eq_some_iff.1 hp).1
    rw [h3 p (by omega)] at hp
    cases hp
    exact bondRow_sorted hs (fun b hb' => (hb b hb').1)
  have hN : ∀ p q, Ngb ngbs p q ↔ p ≠ q ∧ Bond.mk' p q ∈ bonds := by
    intro p q
    constructor
    · rintro ⟨row, hr, hq⟩
      have hp' := (List.getElem?_eq_some_iff.1 hr).1
      rw [h3 p (by omega)] at hr
      cases hr
      obtain ⟨b, hb', h⟩ := mem_bondRow.1 hq
      have := (hb b hb').1
      rcases h with ⟨rfl, rfl⟩ | ⟨rfl, rfl⟩
      · refine ⟨by omega, ?_⟩
        unfold Bond.mk'; rw [if_pos this]; exact hb'
      · refine ⟨by omega, ?_⟩
        unfold Bond.mk'; rw [if_neg (by omega)]; exact hb'
    · rintro ⟨hne, hm⟩
      have hr := hb _ hm
      obtain ⟨-, e1, e2, -⟩ := C10_unordered p q 0 0
      rw [e1, e2] at hr
      refine ⟨_, h3 p (by omega), mem_bondRow.2 ⟨_, hm, ?_⟩⟩
      rw [e1, e2]; omega
  refine ⟨ngbs, h1, h2, hsort, hN, ?_⟩
  refine sortedBy_ext (r := fun (a b : Bond) => a.lt b = true) Bond.lt_irrefl (fun a b c => Bond.lt_trans)
    (ngb2bonds_sorted ngbs) hs ?_
  intro b
  rw [mem_ngb2bonds hsort, hN]
  constructor
  · rintro ⟨h, -, hm⟩
    have : Bond.mk' b.low b.high = b := by unfold Bond.mk'; rw [if_pos h]; rfl
    rwa [this] at hm
  · intro hm
    have h := (hb b hm).1
    have : Bond.mk' b.low b.high = b := by unfold Bond.mk'; rw [if_pos h]; rfl
    exact ⟨h, by omega, by rwa [this]⟩

/-- Without the hypotheses: a self bond puts the particle twice in its own row; a one-sided relation
seen from the larger index only is lost; an index out of range is undefined behaviour. -/
theorem C11_hypotheses_needed :
    makeNgbListFromBonds 1 [Bond.mk' 0 0] = .ok [[0, 0]] ∧
    ngb2bonds [[], [0]] = [] ∧
    makeNgbListFromBonds 2 [Bond.mk' 0 2] = .error .ub := by decide

/-- Non-vacuity: a triangle with a tail, both ways. -/
example : ngb2bonds [[1, 2], [0, 2], [0, 1, 3], [2]] = [⟨0, 1⟩, ⟨0, 2⟩, ⟨1, 2⟩, ⟨2, 3⟩] := by decide

example : makeNgbListFromBonds 4 [⟨0, 1⟩, ⟨0, 2⟩, ⟨1, 2⟩, ⟨2, 3⟩] =
    .ok [[1, 2], [0, 2], [0, 1, 3], [2]] := by decide

example : IsBondSet [⟨0, 1⟩, ⟨0, 2⟩, ⟨1, 2⟩, ⟨2, 3⟩] := by unfold IsBondSet; decide

end Colloids
