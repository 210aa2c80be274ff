import Verif.Py.PilesProps

/-! # C251: where a pile of 2D centers is cut -/

namespace Colloids
namespace Py
namespace Piles

variable {S : Type}

/-- The slices from `a` to `b` (not included). -/
def between (cl : List S) (ab : Nat × Nat) : List S := (cl.take ab.2).drop ab.1

theorem arraySplit_cuts (done cl : List S) (idx : List Nat) (hs : idx.Pairwise (· ≤ ·)) (hle : ∀ i ∈ idx, done.length ≤ i ∧ i ≤ done.length + cl.length) :
    arraySplit done.length cl idx = ((done.length :: idx).zip (idx ++ [done.length + cl.length])).map (between (done ++ cl)) := by
  induction idx generalizing done cl with
  | nil =>
    simp only [arraySplit, List.nil_append, List.zip_cons_cons, List.zip_nil_right, List.map_cons, List.map_nil, between]
    rw [List.take_of_length_le (by rw [List.length_append]), List.drop_left]
  | cons i idx ih =>
    obtain ⟨h1, h2⟩ := hle i List.mem_cons_self
    rw [List.pairwise_cons] at hs
    have hd : (done ++ cl.take (i - done.length)).length = i := by
      rw [List.length_append, List.length_take]
      omega
    have hc : (cl.drop (i - done.length)).length = done.length + cl.length - i := by
      rw [List.length_drop]
      omega
    have := ih (done ++ cl.take (i - done.length)) (cl.drop (i - done.length)) hs.2 (by
      intro j hj
      rw [hd, hc]
      have := hs.1 j hj
      have := hle j (List.mem_cons_of_mem _ hj)
      omega)
    rw [List.append_assoc, List.take_append_drop, hd, hc, show i + (done.length + cl.length - i) = done.length + cl.length by omega] at this
    rw [arraySplit, show max done.length i = i by omega, this, List.cons_append, List.zip_cons_cons, List.map_cons]
    congr 1
    rw [between]
    simp only
    rw [List.take_append, List.take_of_length_le h1, List.drop_left]

theorem pieces_final {split : List S → List Nat} (L : List (List S)) (hf : ∀ g ∈ L, Final split g) :
    pieces split L.length L = .ok (L.filter fun g => decide (3 ≤ g.length)) := by
  induction L with
  | nil => rfl
  | cons g L ih =>
    have hg := hf g List.mem_cons_self
    have ih := ih fun x hx => hf x (List.mem_cons_of_mem _ hx)
    rw [List.length_cons, pieces, List.filter_cons]
    by_cases h3 : g.length < 3
    · rw [if_pos h3, if_neg (by simp; omega)]
      exact ih
    · rw [if_neg h3, if_pos (show g.length < 5 ∨ split g = [] from hg), if_pos (by simp; omega), ih, ok_bind]
      rfl

/-- C251. A pile of five slices or more is cut at the slices of the strong changes of position: what is treated are the slices from a cut to the next, in order,
but those of less than three slices. The hypothesis `hfin` is that there is no strong change inside the pieces. -/
theorem C251_cuts {split : List S → List Nat} {cl : List S} (h5 : 5 ≤ cl.length) (hne : split cl ≠ []) (hs : (split cl).Pairwise (· ≤ ·))
    (hle : ∀ i ∈ split cl, i ≤ cl.length)
    (hfin : ∀ ab ∈ (0 :: split cl).zip (split cl ++ [cl.length]), ((cl.take ab.2).drop ab.1).length < 5 ∨ split ((cl.take ab.2).drop ab.1) = []) :
    pieces split ((split cl).length + 2) [cl] =
      .ok ((((0 :: split cl).zip (split cl ++ [cl.length])).map fun ab => (cl.take ab.2).drop ab.1).filter fun g => decide (3 ≤ g.length)) := by
  have hc := arraySplit_cuts [] cl (split cl) hs (fun i hi => ⟨Nat.zero_le _, by simpa using hle i hi⟩)
  simp only [List.length_nil, Nat.zero_add, List.nil_append] at hc
  rw [pieces, if_neg (by omega), if_neg (by rw [not_or]; exact ⟨by omega, hne⟩), List.nil_append, hc]
  have hlen : (((0 :: split cl).zip (split cl ++ [cl.length])).map (between cl)).length = (split cl).length + 1 := by
    rw [List.length_map, List.length_zip, List.length_cons, List.length_append]
    simp
  have := pieces_final (split := split) (((0 :: split cl).zip (split cl ++ [cl.length])).map (between cl)) (by
    intro g hg
    obtain ⟨ab, hab, rfl⟩ := List.mem_map.1 hg
    exact hfin ab hab)
  rw [hlen] at this
  exact this

/-- Nine slices with changes at the fourth and the eighth. -/
example : let split : List Nat → List Nat := fun cl => if cl.length = 9 then [3, 7] else []
    let cl := List.range 9
    5 ≤ cl.length ∧ split cl ≠ [] ∧ (split cl).Pairwise (· ≤ ·) ∧ (∀ i ∈ split cl, i ≤ cl.length) ∧
    (∀ ab ∈ (0 :: split cl).zip (split cl ++ [cl.length]), ((cl.take ab.2).drop ab.1).length < 5 ∨ split ((cl.take ab.2).drop ab.1) = []) ∧
    pieces split 4 [cl] = .ok [[0, 1, 2], [3, 4, 5, 6]] := by
  decide +kernel

end Piles
end Py
end Colloids
