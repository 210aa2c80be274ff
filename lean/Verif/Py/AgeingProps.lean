import Verif.CommonLemmas
import Verif.Files.Lemmas
import Verif.Mains.SeriesProps
import Verif.Py.AgeingModel

/-! # C263: intervals of ageing -/

namespace Colloids
namespace Py
namespace Ageing

open Dyn Mains

/-- C263. The intervals begin at each multiple of `step` after the first frame, but in the last 50 frames, in order; all stop `average` frames before the end of the film. They are in order of
time if `average` is at most 50, and there is none for films of 50 frames or fewer. -/
theorem C263_intervals_partial (offset size step average : Nat) (hs : 0 < step) :
    ∃ out, getIntervals offset size step average = .ok out ∧ out.Pairwise (fun a b => a.1 < b.1) ∧
      (∀ i, i ∈ out ↔ ∃ k : Nat, k * step + 50 < size ∧ i = ((offset : Int) + k * step, (offset : Int) + size - average, (average : Int))) ∧
      (average ≤ 50 → ∀ i ∈ out, i.1 < i.2.1) ∧ (size ≤ 50 ↔ out = []) := by
  have hmem : ∀ i : Int × Int × Int, i ∈ (((List.range (size - 50)).filter fun k => decide (k % step = 0)).map (offset + ·)).map
      (fun t : Nat => ((t : Int), (offset : Int) + size - average, (average : Int))) ↔
        ∃ k : Nat, k * step + 50 < size ∧ i = ((offset : Int) + k * step, (offset : Int) + size - average, (average : Int)) := by
    intro i
    simp only [List.mem_map, List.mem_filter, List.mem_range, decide_eq_true_eq]
    constructor
    · rintro ⟨t, ⟨m, ⟨h1, h2⟩, rfl⟩, rfl⟩
      obtain ⟨k, rfl⟩ := Nat.dvd_of_mod_eq_zero h2
      refine ⟨k, by rw [Nat.mul_comm]; omega, ?_⟩
      rw [Nat.mul_comm]
      push_cast
      rfl
    · rintro ⟨k, h1, rfl⟩
      refine ⟨_, ⟨k * step, ⟨by omega, Nat.mul_mod_left _ _⟩, rfl⟩, ?_⟩
      push_cast
      rfl
  refine ⟨_, by rw [getIntervals, starts, if_neg (by omega), ok_bind]; rfl, ?_, hmem, fun ha i hi => ?_, ?_⟩
  · rw [List.pairwise_map, List.pairwise_map]
    refine (List.pairwise_lt_range.filter _).imp fun {a b} h => ?_
    push_cast
    omega
  · obtain ⟨k, h1, rfl⟩ := (hmem i).1 hi
    have : ((k * step : Nat) : Int) = (k : Int) * step := by push_cast; rfl
    show (offset : Int) + k * step < offset + size - average
    omega
  · constructor
    · intro h
      rw [show size - 50 = 0 by omega]
      rfl
    · intro h
      by_contra hgt
      have := (hmem ((offset : Int) + (0 : Nat) * step, (offset : Int) + size - average, (average : Int))).2 ⟨0, by omega, rfl⟩
      rw [h] at this
      exact absurd this (by simp)

/-- C263. The program reads the intervals that are given to it, three numbers by three numbers. -/
theorem C263_arguments (l : List (Int × Int × Int)) : subsets (arguments l) = l := by
  induction l with
  | nil => rfl
  | cons i l ih =>
    show subsets (i.1 :: i.2.1 :: i.2.2 :: arguments l) = _
    rw [subsets, ih]

/-- C263, the part that is false. The program refuses the first interval of any film of more than 50 frames, because the last one that is needed is one after the end: no file is written. -/
theorem C263_refused_counterexample {D D' : DynParts ℝ} (hw : Wf D) (hi : D.index = none) (hD : removeDrift D = .ok D') (dt : ℝ) (offset step average : Nat)
    (hs : 0 < step) (hlong : 50 < D.positions.length) (hn : offset + D.positions.length + 1 < 2 ^ 64) :
    ∃ out, getIntervals offset D.positions.length step average = .ok out ∧ isfProgram D dt (arguments out) = ⟨[], some .invalidArgument⟩ := by
  obtain ⟨-, -, -, -, g4⟩ := drift_film hw hi hD
  obtain ⟨out, h1, -, h3, -, h5⟩ := C263_intervals_partial offset D.positions.length step average hs
  refine ⟨out, h1, ?_⟩
  cases out with
  | nil => exact absurd (h5.2 rfl) (by omega)
  | cons i l =>
    obtain ⟨k, -, rfl⟩ := (h3 i).1 List.mem_cons_self
    have hbad : ∀ a : Int, isfSubset D' dt (a, (offset : Int) + D.positions.length - average, (average : Int)) = .error .invalidArgument := by
      intro a
      have hm : (szMod : Int) = 2 ^ 64 := by unfold szMod; norm_num
      have hm' : szMod = 2 ^ 64 := by unfold szMod; rfl
      have hb : (toSize ((offset : Int) + D.positions.length - average) + toSize (average : Int) + 1) % szMod = offset + D.positions.length + 1 := by
        unfold toSize
        rw [hm, hm']
        omega
      have : outOfFilm D'.positions.length (toSize a) (toSize ((offset : Int) + D.positions.length - average)) (toSize (average : Int)) = true := by
        rw [outOfFilm, hb, g4, Bool.or_eq_true]
        right
        exact decide_eq_true (by omega)
      unfold isfSubset
      simp only [this, if_true]
      rfl
    unfold isfProgram
    rw [hD]
    show runFiles _ (subsets ((_ : Int) :: _ :: _ :: arguments l)) = _
    rw [subsets, runFiles, hbad]

/-- C263, the part that is false. `auto_ageing` forgets what it is asked for. -/
theorem C263_auto_counterexample (offset size step average : Nat) (h : 50 < size) (ha : average ≠ 10) (hs : 0 < step) :
    ∃ out l, autoAgeing offset size step average = .ok out ∧ getIntervals offset size step average = .ok l ∧ out ≠ arguments l := by
  obtain ⟨o, h1, -, h3, -, h5⟩ := C263_intervals_partial offset size 10 10 (by omega)
  obtain ⟨l, k1, -, k3, -, k5⟩ := C263_intervals_partial offset size step average hs
  refine ⟨arguments o, l, by rw [autoAgeing, h1, ok_bind]; rfl, k1, fun he => ?_⟩
  cases o with
  | nil => exact absurd (h5.2 rfl) (by omega)
  | cons i o =>
    cases l with
    | nil => exact absurd (k5.2 rfl) (by omega)
    | cons j l =>
      obtain ⟨a, -, rfl⟩ := (h3 i).1 List.mem_cons_self
      obtain ⟨b, -, rfl⟩ := (k3 j).1 List.mem_cons_self
      simp only [arguments, List.flatMap_cons, List.cons_append, List.nil_append, List.cons.injEq] at he
      have := he.2.2.1
      omega

theorem digits_cut {a a' s s' : List Char} {c : Char} (ha : ∀ x ∈ a, Files.isDig x = true) (ha' : ∀ x ∈ a', Files.isDig x = true) (hc : Files.isDig c = false)
    (h : a ++ c :: s = a' ++ c :: s') : a = a' ∧ s = s' := by
  induction a generalizing a' with
  | nil =>
    cases a' with
    | nil => exact ⟨rfl, by simpa using h⟩
    | cons x a' =>
      simp only [List.nil_append, List.cons_append, List.cons.injEq] at h
      have := ha' x List.mem_cons_self
      rw [← h.1, hc] at this
      exact absurd this (by decide)
  | cons y a ih =>
    cases a' with
    | nil =>
      simp only [List.nil_append, List.cons_append, List.cons.injEq] at h
      have := ha y List.mem_cons_self
      rw [h.1, hc] at this
      exact absurd this (by decide)
    | cons x a' =>
      simp only [List.cons_append, List.cons.injEq] at h
      obtain ⟨h1, h2⟩ := ih (fun x hx => ha x (List.mem_cons_of_mem _ hx)) (fun x hx => ha' x (List.mem_cons_of_mem _ hx)) h.2
      exact ⟨by rw [h.1, h1], h2⟩

/-- C263. Different intervals have different files. -/
theorem C263_files (base ext : List Char) (i j : Nat × Nat × Nat) (h : intervalFile base i ext = intervalFile base j ext) : i = j := by
  obtain ⟨a, b, c⟩ := i
  obtain ⟨a', b', c'⟩ := j
  simp only [intervalFile, List.append_assoc, List.append_cancel_left_eq, List.cons_append, List.nil_append, List.cons.injEq, true_and] at h
  obtain ⟨h1, h⟩ := digits_cut (c := 'f') (Files.dec_digits a) (Files.dec_digits a') (by decide) h
  have h := List.append_cancel_left (as := "rom_".toList) h
  obtain ⟨h2, h⟩ := digits_cut (c := 't') (Files.dec_digits b) (Files.dec_digits b') (by decide) h
  have h := List.append_cancel_left (as := "o_".toList) h
  obtain ⟨h3, -⟩ := digits_cut (c := 'a') (Files.dec_digits c) (Files.dec_digits c') (by decide) h
  have e1 := congrArg Files.value h1
  have e2 := congrArg Files.value h2
  have e3 := congrArg Files.value h3
  rw [Files.value_dec, Files.value_dec] at e1 e2 e3
  rw [e1, e2, e3]

/-- A particle in `n` frames. -/
def exLong (n : Nat) : DynParts ℝ :=
  ⟨List.replicate n ⟨[fun _ => 1], ⟨fun _ => 0, fun _ => 10⟩, 1, none⟩, ⟨[⟨0, List.replicate n 0⟩], List.replicate n [0]⟩, 1, none, []⟩

theorem exLong_wf (n : Nat) (h0 : 0 < n) (h1 : n ≤ 2 ^ 64) : Wf (exLong n) := by
  refine ⟨by simp [exLong]; omega, by simp [exLong], by simpa [exLong] using h1, by simp [exLong], ?_⟩
  intro t p tr
  rw [invert_ok]
  unfold TrajIndex.convert
  rw [bind_ok]
  simp only [getR_ok]
  match tr with
  | 0 =>
    simp only [exLong, List.getElem?_cons_zero, Option.some.injEq, exists_eq_left']
    rw [at_eq (by simp; omega) (by simpa [szMod] using h1)]
    by_cases ht : t < n
    · cases p <;> simp [ht]
    · simp [ht, List.getElem?_replicate]
  | tr + 1 =>
    simp only [exLong, List.getElem?_cons_succ, List.getElem?_nil]
    by_cases ht : t < n
    · cases p <;> simp [ht]
    · simp [ht, List.getElem?_replicate]

example : ∃ D D' : DynParts ℝ, Wf D ∧ removeDrift D = .ok D' ∧ D.index = none ∧ 50 < D.positions.length ∧ D.positions.length + 1 < 2 ^ 64 := by
  obtain ⟨v, D', h1, -⟩ := C41_removeDrift_partial (exLong_wf 60 (by omega) (by omega)) rfl
  exact ⟨_, D', exLong_wf 60 (by omega) (by omega), h1, rfl, by simp [exLong], by simp [exLong]⟩

/-- The intervals of a film of 75 frames, and a name. -/
example : getIntervals 0 75 10 10 = .ok [(0, 65, 10), (10, 65, 10), (20, 65, 10)] ∧
    intervalFile "d/film".toList (0, 65, 10) "isf".toList = "d/film_0from_65to_10av.isf".toList := by decide +kernel

end Ageing
end Py
end Colloids
