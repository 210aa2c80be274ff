import Verif.CommonLemmas
import Verif.Mains.VoroReadModel

/-! # Proofs about the text of voro++: C244 -/

namespace Colloids
namespace Mains

variable {G : Type}

/-- The words of the line of a cell in the format `%i %v %s %n`. -/
def cellWords (c : Nat × G × List Int) : List (Word G) := .int c.1 :: .vol c.2.1 :: .int c.2.2.length :: c.2.2.map .int

theorem getI_nat {α : Type} (l : List α) (n : Nat) : getI l (n : Int) = getR l n := by
  rw [getI, if_pos (Int.natCast_nonneg n), Int.toNat_natCast]

theorem modifyI_nat {α : Type} (l : List α) (n : Nat) (a : α) (h : n < l.length) : modifyI l (n : Int) (fun _ => a) = .ok (l.set n a) := by
  rw [modifyI, if_pos (Int.natCast_nonneg n), Int.toNat_natCast, modifyR, if_pos h]
  congr 1
  apply List.ext_getElem?
  intro i
  rw [List.getElem?_modify, List.getElem?_set]
  by_cases hi : n = i
  · subst hi
    rw [if_pos rfl, List.getElem?_eq_getElem h]
    simp [h]
  · simp [hi]

/-- The stream before its end: not at the end if a newline follows or if a word is left. -/
def Ready (b : Stream G) : Prop := b.fail = false ∧ b.eof = (b.words.isEmpty && !b.newline)

theorem readInt_cons {b : Stream G} (h : Ready b) {i : Int} {ws : List (Word G)} (hw : b.words = .int i :: ws) (x : Option Int) :
    b.readInt x = (some i, b.next ws) ∧ Ready (b.next ws) := by
  constructor
  · have hg : b.good = true := by rw [Stream.good, h.1, h.2, hw]; rfl
    rw [Stream.readInt, hg, if_pos rfl, hw]
  · exact ⟨h.1, rfl⟩

theorem readVol_cons {b : Stream G} (h : Ready b) {v : G} {ws : List (Word G)} (hw : b.words = .vol v :: ws) (zero x : G) :
    b.readVol zero x = (v, b.next ws) ∧ Ready (b.next ws) := by
  constructor
  · have hg : b.good = true := by rw [Stream.good, h.1, h.2, hw]; rfl
    rw [Stream.readVol, hg, if_pos rfl, hw]
  · exact ⟨h.1, rfl⟩

theorem readRow_ints {b : Stream G} (h : Ready b) (row l : List Int) (hl : l.length = row.length) {ws : List (Word G)} (hw : b.words = l.map .int ++ ws) :
    ∃ b', readRow b row = (l, b') ∧ Ready b' ∧ b'.words = ws ∧ b'.newline = b.newline := by
  induction row generalizing b l with
  | nil =>
    obtain rfl : l = [] := List.length_eq_zero_iff.1 hl
    exact ⟨b, rfl, h, hw, rfl⟩
  | cons a row ih =>
    rcases l with _ | ⟨i, l⟩
    · cases hl
    · obtain ⟨h1, h2⟩ := readInt_cons h (i := i) (ws := l.map .int ++ ws) (by rw [hw]; rfl) (some a)
      obtain ⟨b', h3, h4, h5, h6⟩ := ih h2 l (by simpa using hl) rfl
      refine ⟨b', ?_, h4, h5, h6⟩
      simp only [readRow, h1, h3, Option.getD_some]

theorem resizeI_nat (l : List Int) (n : Nat) : ∃ r, resizeI l (n : Int) = .ok r ∧ r.length = n := by
  refine ⟨_, by rw [resizeI, if_pos (Int.natCast_nonneg n)], ?_⟩
  rw [List.length_append, List.length_take, List.length_replicate, Int.toNat_natCast]
  omega

theorem resizeI_same (l : List Int) : resizeI l (l.length : Int) = .ok l := by
  rw [resizeI, if_pos (Int.natCast_nonneg _), Int.toNat_natCast, List.take_length, Nat.sub_self, List.replicate_zero, List.append_nil]

/-- A turn on the line of a cell. -/
theorem readCell_line (zero : G) (x : Reading G) (h : Ready x.buffer) (c : Nat × G × List Int) {ws : List (Word G)} (hw : x.buffer.words = cellWords c ++ ws)
    (h1 : c.1 < x.volumes.length) (h2 : c.1 < x.neighbours.length) :
    ∃ b, readCell zero x = .ok ⟨b, some c.1, some c.2.2.length, x.volumes.set c.1 c.2.1, x.neighbours.set c.1 c.2.2⟩ ∧ Ready b ∧ b.words = ws ∧
      b.newline = x.buffer.newline := by
  obtain ⟨r1, h3⟩ := readInt_cons h (i := c.1) (ws := .vol c.2.1 :: .int c.2.2.length :: (c.2.2.map .int ++ ws)) (by rw [hw]; rfl) x.p
  obtain ⟨r2, h4⟩ := readVol_cons h3 (v := c.2.1) (ws := .int c.2.2.length :: (c.2.2.map .int ++ ws)) rfl zero x.volumes[c.1]
  obtain ⟨r3, h5⟩ := readInt_cons h4 (i := c.2.2.length) (ws := c.2.2.map .int ++ ws) rfl x.s
  obtain ⟨row, r4, h6⟩ := resizeI_nat x.neighbours[c.1] c.2.2.length
  obtain ⟨b, r5, h7, h8, h9⟩ := readRow_ints h5 row c.2.2 h6.symm rfl
  refine ⟨b, ?_, h7, h8, h9⟩
  rw [readCell]
  simp only [r1, useInt, ok_bind, getI_nat, getR_of_lt h1, getR_of_lt h2, r2, modifyI_nat _ _ _ h1, r3, r4, r5, modifyI_nat _ _ _ h2, pure_eq_ok]

theorem readRow_failed {b : Stream G} (h : b.fail = true) (row : List Int) : ∃ b', readRow b row = (row, b') ∧ b'.fail = true := by
  induction row generalizing b with
  | nil => exact ⟨b, rfl, h⟩
  | cons a row ih =>
    have hg : b.good = false := by rw [Stream.good, h]; simp
    obtain ⟨b', h1, h2⟩ := ih (b := { b with fail := true }) rfl
    refine ⟨b', ?_, h2⟩
    simp only [readRow, Stream.readInt, hg, Bool.false_eq_true, if_false, h1, Option.getD_some]

/-- The turn after the last line changes nothing. -/
theorem readCell_end (zero : G) (x : Reading G) (h : Ready x.buffer) (hw : x.buffer.words = []) (hn : x.buffer.newline = true) (n : Nat)
    (hp : x.p = some (n : Int)) (h1 : n < x.volumes.length) (h2 : n < x.neighbours.length) (hs : x.s = some (x.neighbours[n].length : Int)) :
    ∃ b, readCell zero x = .ok ⟨b, x.p, x.s, x.volumes, x.neighbours⟩ ∧ b.good = false := by
  have hg : x.buffer.good = true := by rw [Stream.good, h.1, h.2, hw, hn]; rfl
  have r1 : x.buffer.readInt x.p = (x.p, ⟨[], x.buffer.newline, true, true⟩) := by
    rw [Stream.readInt, hg, if_pos rfl, hw]
  have r2 : (⟨[], x.buffer.newline, true, true⟩ : Stream G).readVol zero x.volumes[n] = (x.volumes[n], ⟨[], x.buffer.newline, true, true⟩) := rfl
  have r3 : (⟨[], x.buffer.newline, true, true⟩ : Stream G).readInt x.s = (x.s, ⟨[], x.buffer.newline, true, true⟩) := rfl
  obtain ⟨b, r4, h3⟩ := readRow_failed (b := ⟨[], x.buffer.newline, true, true⟩) rfl x.neighbours[n]
  refine ⟨b, ?_, by rw [Stream.good, h3]; simp⟩
  rw [readCell]
  rw [hs] at r3
  simp only [r1]
  simp only [hp, useInt, ok_bind, getI_nat, getR_of_lt h1, getR_of_lt h2, r2, modifyI_nat _ _ _ h1, r3, hs, resizeI_same, r4, modifyI_nat _ _ _ h2, pure_eq_ok,
    List.set_getElem_self]

theorem readCells_lines (zero : G) (cs : List (Nat × G × List Int)) (x : Reading G) (h : Ready x.buffer) (hw : x.buffer.words = cs.flatMap cellWords)
    (hr : ∀ c ∈ cs, c.1 < x.volumes.length ∧ c.1 < x.neighbours.length) (fuel : Nat) (hf : cs.length + 2 ≤ fuel)
    (hlast : cs = [] → ∃ (n : Nat) (h2 : n < x.neighbours.length), x.p = some (n : Int) ∧ n < x.volumes.length ∧ x.s = some (x.neighbours[n].length : Int)) :
    ∃ y, readCells zero fuel x = .ok y ∧ y.volumes = cs.foldl (fun l c => l.set c.1 c.2.1) x.volumes ∧
      y.neighbours = cs.foldl (fun l c => l.set c.1 c.2.2) x.neighbours := by
  induction cs generalizing x fuel with
  | nil =>
    obtain ⟨n, h2, hp, h1, hs⟩ := hlast rfl
    obtain ⟨fuel, rfl⟩ : ∃ f, fuel = f + 2 := ⟨fuel - 2, by omega⟩
    rcases hn : x.buffer.newline with _ | _
    · refine ⟨x, ?_, rfl, rfl⟩
      have hg : x.buffer.good = false := by rw [Stream.good, h.2, hw, hn]; rfl
      rw [readCells, hg]
      rfl
    · obtain ⟨b, h3, h4⟩ := readCell_end zero x h hw hn n hp h1 h2 hs
      have hg : x.buffer.good = true := by rw [Stream.good, h.1, h.2, hw, hn]; rfl
      refine ⟨⟨b, x.p, x.s, x.volumes, x.neighbours⟩, ?_, rfl, rfl⟩
      rw [readCells, hg, if_pos rfl, h3, ok_bind, readCells]
      simp only [h4, Bool.false_eq_true, if_false, pure_eq_ok]
  | cons c cs ih =>
    obtain ⟨fuel, rfl⟩ : ∃ f, fuel = f + 1 := ⟨fuel - 1, by simp only [List.length_cons] at hf; omega⟩
    obtain ⟨h1, h2⟩ := hr c List.mem_cons_self
    have hw' : x.buffer.words = cellWords c ++ cs.flatMap cellWords := by rw [hw, List.flatMap_cons]
    obtain ⟨b, h3, h4, h5, _⟩ := readCell_line zero x h c hw' h1 h2
    have hg : x.buffer.good = true := by rw [Stream.good, h.1, h.2, hw']; rfl
    obtain ⟨y, h6, h7, h8⟩ := ih ⟨b, some c.1, some c.2.2.length, x.volumes.set c.1 c.2.1, x.neighbours.set c.1 c.2.2⟩ h4 h5
      (fun d hd => by
        simp only [List.length_set]
        exact hr d (List.mem_cons_of_mem _ hd)) fuel (by simp only [List.length_cons] at hf; omega)
      (fun _ => ⟨c.1, by simpa using h2, rfl, by simpa using h1, by simp⟩)
    refine ⟨y, ?_, h7, h8⟩
    rw [readCells, hg, if_pos rfl, h3, ok_bind, h6]

theorem fold_set_get {α β : Type} (key : β → Nat) (val : β → α) (cs : List β) (l : List α) :
    (cs.foldl (fun l c => l.set (key c) (val c)) l).length = l.length ∧
    (∀ i, (∀ c ∈ cs, key c ≠ i) → (cs.foldl (fun l c => l.set (key c) (val c)) l)[i]? = l[i]?) ∧
    ((cs.map key).Nodup → ∀ c ∈ cs, key c < l.length → (cs.foldl (fun l c => l.set (key c) (val c)) l)[key c]? = some (val c)) := by
  induction cs generalizing l with
  | nil => exact ⟨rfl, fun _ _ => rfl, fun _ c hc => absurd hc List.not_mem_nil⟩
  | cons d cs ih =>
    obtain ⟨h1, h2, h3⟩ := ih (l.set (key d) (val d))
    refine ⟨by rw [List.foldl_cons, h1, List.length_set], ?_, ?_⟩
    · intro i hi
      rw [List.foldl_cons, h2 i (fun c hc => hi c (List.mem_cons_of_mem _ hc)), List.getElem?_set_ne (hi d List.mem_cons_self)]
    · intro hnd c hc hlt
      rw [List.map_cons, List.nodup_cons] at hnd
      rw [List.foldl_cons]
      rcases List.mem_cons.1 hc with rfl | hc
      · rw [h2 _ (fun e he h => hnd.1 (List.mem_map.2 ⟨e, he, h⟩)), List.getElem?_set_self hlt]
      · exact h3 hnd.2 c hc (by rwa [List.length_set])

/-- C244. `get_volumes` gives back what voro++ prints, whatever the order of the cells and whether or not the text ends with a newline (the loop then makes a turn
too many): each printed cell has its volume and its neighbours, sorted; the cells that are not printed keep their volume and have no neighbour. -/
theorem C244_cells_partial (sort : List Int → List Int) (hsort : sort [] = []) (zero : G) (cs : List (Nat × G × List Int)) (hne : cs ≠ []) (newline : Bool)
    (volumes : List G) (hr : ∀ c ∈ cs, c.1 < volumes.length) (hnd : (cs.map Prod.fst).Nodup) :
    ∃ vs ns, getVolumes sort zero (cs.flatMap cellWords) newline volumes = .ok (vs, ns) ∧ vs.length = volumes.length ∧ ns.length = volumes.length ∧
      (∀ c ∈ cs, vs[c.1]? = some c.2.1 ∧ ns[c.1]? = some (sort c.2.2)) ∧
      ∀ i, i < volumes.length → (∀ c ∈ cs, c.1 ≠ i) → vs[i]? = volumes[i]? ∧ ns[i]? = some [] := by
  have hlen : cs.length + 2 ≤ (cs.flatMap cellWords).length + 2 := by
    have : cs.length ≤ (cs.flatMap cellWords).length := by
      clear hne hr hnd
      induction cs with
      | nil => exact Nat.le_refl _
      | cons c cs ih =>
        rw [List.flatMap_cons, List.length_append, List.length_cons]
        have : 1 ≤ (cellWords c).length := by simp [cellWords]
        omega
    omega
  have hw : cs.flatMap cellWords ≠ [] := by
    rcases cs with _ | ⟨c, cs⟩
    · exact absurd rfl hne
    · rw [List.flatMap_cons]
      intro h
      cases h
  obtain ⟨y, h1, h2, h3⟩ := readCells_lines zero cs ⟨⟨cs.flatMap cellWords, newline, false, false⟩, none, none, volumes, List.replicate volumes.length []⟩
    ⟨rfl, by
      show false = ((cs.flatMap cellWords).isEmpty && !newline)
      rw [List.isEmpty_eq_false_iff.2 hw]
      rfl⟩ rfl
    (fun c hc => ⟨hr c hc, by rw [List.length_replicate]; exact hr c hc⟩) _ hlen (fun h => absurd h hne)
  refine ⟨y.volumes, y.neighbours.map sort, ?_, ?_, ?_, ?_, ?_⟩
  · rw [getVolumes, h1]
    rfl
  · rw [h2, (fold_set_get _ _ cs _).1]
  · rw [h3, List.length_map, (fold_set_get _ _ cs _).1, List.length_replicate]
  · intro c hc
    refine ⟨by rw [h2]; exact (fold_set_get _ _ cs _).2.2 hnd c hc (hr c hc), ?_⟩
    rw [List.getElem?_map, h3, (fold_set_get (fun c : Nat × G × List Int => c.1) (fun c => c.2.2) cs _).2.2 hnd c hc
      (by rw [List.length_replicate]; exact hr c hc)]
    rfl
  · intro i hi hc
    refine ⟨by rw [h2]; exact (fold_set_get _ _ cs _).2.1 i hc, ?_⟩
    rw [List.getElem?_map, h3, (fold_set_get (fun c : Nat × G × List Int => c.1) (fun c => c.2.2) cs _).2.1 i hc, List.getElem?_replicate_of_lt hi]
    simp only [Option.map_some, hsort]

/-- C244, the part that is false. When voro++ prints no cell a variable is used that has no value: this is undefined. -/
theorem C244_empty_counterexample (sort : List Int → List Int) (zero : G) (newline : Bool) (volumes : List G) :
    getVolumes sort zero [] newline volumes = .error .ub := rfl

/-- C244, the part that is false. A cell whose number is not one of a particle is written out of the arrays: this is undefined. -/
theorem C244_outside_counterexample (sort : List Int → List Int) (zero : G) (c : Nat × G × List Int) (ws : List (Word G)) (newline : Bool) (volumes : List G)
    (h : volumes.length ≤ c.1) : getVolumes sort zero (cellWords c ++ ws) newline volumes = .error .ub := by
  have h1 : getR volumes c.1 = .error .ub := getR_eq_ub h
  obtain ⟨r1, _⟩ := readInt_cons (b := ⟨cellWords c ++ ws, newline, false, false⟩) ⟨rfl, rfl⟩ (i := c.1)
    (ws := .vol c.2.1 :: .int c.2.2.length :: (c.2.2.map .int ++ ws)) rfl none
  rw [getVolumes, readCells]
  simp only [Stream.good, Bool.not_false, Bool.and_self, if_true, readCell, r1, useInt, ok_bind, getI_nat, h1, error_bind]

example : getVolumes (G := Nat) id 0 ([(1, 5, [0, -1]), (0, 4, [1])].flatMap cellWords) true [0, 0] = .ok ([4, 5], [[1], [0, -1]]) := rfl

end Mains
end Colloids
